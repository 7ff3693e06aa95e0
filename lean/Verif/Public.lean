import Verif.Dag

/-!
# The public inputs of the main component

From the list `{public [...]}` of the main component to the public inputs of the graph (`Dag.Template`): the check of the list, the
instance that takes it, and the split of the inputs of an instance.

Simplifications.
* Of the body of a template only declarations of wires and `if` statements are here: what static analysis and execution make of the list
  depends on nothing else.  A declaration has the wire as it is executed (dimensions and bus fields resolved).  An `if` has the value of its condition, which
  must be known when there are declarations in it (`DeclarationInUnknown`, constraint_generation/src/execute.rs).
* Loops have no declarations of wires (type_analysis/src/analyzers/signal_declaration_analysis.rs:35-37).
-/

namespace Verif.Public

open Verif.Dag

/-- ast.rs `SignalType`. -/
inductive Kind where
  | input | output | intermediate
  deriving DecidableEq, Repr

/-- A wire: a signal, or a bus with its fields. -/
structure Wire where
  name : Name
  dims : List Nat
  fields : Option Wires
  deriving DecidableEq, Repr

mutual
/-- A statement of the body of a template. -/
inductive Item where
  | decl (k : Kind) (w : Wire)
  | ite (c : Bool) (a b : Body)
/-- The body of a template. -/
inductive Body where
  | nil
  | cons (i : Item) (l : Body)
end

mutual
/-- program_structure/src/program_library/template_data.rs:160-238 `fill_inputs_and_outputs`: the keys of `input_wires`; both branches of an `if`. -/
def Item.inputs : Item → List Name
  | .decl .input w => [w.name]
  | .decl _ _ => []
  | .ite _ a b => a.inputs ++ b.inputs
/-- The same on a list of statements. -/
def Body.inputs : Body → List Name
  | .nil => []
  | .cons i l => i.inputs ++ l.inputs
end

mutual
/-- constraint_generation/src/execute.rs:672-685 with the declarations: the wires in the order they are declared; one branch of an `if`. -/
def Item.wires : Item → List (Kind × Wire)
  | .decl k w => [(k, w)]
  | .ite c a b => if c then a.wires else b.wires
/-- The same on a list of statements. -/
def Body.wires : Body → List (Kind × Wire)
  | .nil => []
  | .cons i l => i.wires ++ l.wires
end

/-- symbol_analysis.rs:70-96 `analyze_main`: the names reported as no inputs. -/
def analyzeMain (main : Body) (list : List Name) : List Name := list.filter fun s => !main.inputs.contains s

/-- A list of wires as the graph has it. -/
def toWires : List Wire → Wires
  | [] => .nil
  | ⟨n, ds, none⟩ :: l => .signal n ds (toWires l)
  | ⟨n, ds, some f⟩ :: l => .bus n ds f (toWires l)

/-- The wires of one kind: executed_template.rs `outputs`, `inputs`, `intermediates`. -/
def ofKind (k : Kind) (l : List (Kind × Wire)) : List Wire := (l.filter fun x => x.1 == k).map (·.2)

/-- The wires of an instance as they go into the graph. -/
structure Split where
  outputs : Wires
  publicInputs : Wires
  privateInputs : Wires
  intermediates : Wires

/-- executed_template.rs:91-129 `new` (a set of names) and 270-311 `build_wires`. -/
def split (list : List Name) (b : Body) : Split :=
  let ins := ofKind .input b.wires
  ⟨toWires (ofKind .output b.wires), toWires (ins.filter fun w => list.contains w.name), toWires (ins.filter fun w => !list.contains w.name),
    toWires (ofKind .intermediate b.wires)⟩

/-- execute.rs:174,3388: the first instance to be executed, that of the main component, takes the list and leaves an empty one. -/
def instances (list : List Name) : List Body → List Split
  | [] => []
  | b :: bs => split list b :: instances [] bs

/-- symbol_analysis.rs:70-109 and execute.rs:165-208: the names reported, or the instances in the order they are begun. -/
def program (list : List Name) (main : Body) (rest : List Body) : Except (List Name) (List Split) :=
  match analyzeMain main list with
  | [] => .ok (instances list (main :: rest))
  | r => .error r

end Verif.Public
