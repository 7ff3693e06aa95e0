import Mathlib.Data.List.Basic
import Mathlib.Data.List.Nodup

/-!
# The structural checks on templates and buses

`custom_gate_analysis`, `check_signal_correctness` and `free_of_invalid_statements`
(`type_analysis/src/analyzers`): what a custom template may contain, where signals may be
declared, what a bus may contain.  Beside them what the execution does with the same statements:
the declarations and constraints of a template, the fields of a bus.

Positions and the wording of reports are left out; statements that are reported carry the number
`elem_id` that `fill` gives them (`program_structure/src/abstract_syntax_tree/ast.rs`).
-/

set_option linter.unusedVariables false

namespace Verif.Struct

/-- `SignalType` (`program_structure/src/abstract_syntax_tree/ast.rs:268-272`). -/
inductive Kind where
  | output
  | input
  | intermediate
deriving DecidableEq, Repr

/-- `VariableType` (`ast.rs:278-284`), without the tags. -/
inductive XType where
  | var
  | signal (k : Kind)
  | component
  | anonymous
  | bus (id : String) (k : Kind)
deriving DecidableEq, Repr

/-- `AssignOp` (`ast.rs:361-365`): `=`, `<--` and `<==`. -/
inductive Op where
  | var
  | signal
  | constraint
deriving DecidableEq, Repr

/-- `Expression` (`ast.rs:287-346`); `node` are the operators, `?:` and inline arrays.  The
accesses of a variable are `none` for an index, in the order of `idx`, and `some f` for a name.
`sugar` are tuples and anonymous components. -/
inductive Ex where
  | num (n : Int)
  | var (x : String) (acc : List (Option String)) (idx : List Ex)
  | node (es : List Ex)
  | uniform (v d : Ex)
  | call (f : String) (args : List Ex)
  | busCall (f : String) (args : List Ex)
  | sugar
deriving Repr

/-- `Statement` (`ast.rs:201-265`). -/
inductive Stmt where
  | ifThen (c : Ex) (a : Stmt)
  | ifElse (c : Ex) (a b : Stmt)
  | loop (c : Ex) (s : Stmt)
  | ret (e : Ex)
  | init (t : XType) (ss : List Stmt)
  | decl (id : Nat) (t : XType) (name : String) (dims : List Ex)
  | subst (id : Nat) (x : String) (acc : List (Option String)) (idx : List Ex) (op : Op) (e : Ex)
  | mult (lhs rhs : Ex) (op : Op)
  | under (id : Nat) (op : Op) (e : Ex)
  | ceq (id : Nat) (a b : Ex)
  | log (es : List Ex)
  | check (e : Ex)
  | block (ss : List Stmt)

/-! ## The checks -/

/-- The reports of `custom_gate_analysis`: `CustomGateSubComponentError`,
`CustomGateConstraintError`, `CustomGateIntermediateSignalWarning`. -/
inductive Report where
  | component (id : Nat)
  | constraint (id : Nat)
  | intermediate (id : Nat)
deriving DecidableEq, Repr

/-- Of a pair of lists, both joined. -/
def both (p q : List Report × List Report) : List Report × List Report := (p.1 ++ q.1, p.2 ++ q.2)

mutual
/-- The inner `custom_gate_analysis` (`type_analysis/src/analyzers/custom_gate_analysis.rs:9-140`):
errors and warnings. -/
def gate : Stmt → List Report × List Report
  | .ifThen _ a => gate a
  | .ifElse _ a b => both (gate a) (gate b)
  | .loop _ s => gate s
  | .init _ ss => gateAll ss
  | .decl id t _ _ =>
      match t with
      | .signal .intermediate => ([], [.intermediate id])
      | .bus _ .intermediate => ([], [.intermediate id])
      | .component => ([.component id], [])
      | .anonymous => ([.component id], [])
      | _ => ([], [])
  | .subst id _ _ _ op _ => if op = .constraint then ([.constraint id], []) else ([], [])
  | .ceq id _ _ => ([.constraint id], [])
  | .block ss => gateAll ss
  | .under id op _ => if op = .constraint then ([.constraint id], []) else ([], [])
  | _ => ([], [])
/-- The loops over statements (`custom_gate_analysis.rs:27-29` and 116-118). -/
def gateAll : List Stmt → List Report × List Report
  | [] => ([], [])
  | s :: ss => both (gate s) (gateAll ss)
end

/-- `custom_gate_analysis` (`custom_gate_analysis.rs:142-152`). -/
def customGate (body : Stmt) : Except (List Report) (List Report) :=
  if (gate body).1 = [] then .ok (gate body).2 else .error (gate body).1

mutual
/-- `treat_statement` (`type_analysis/src/analyzers/signal_declaration_analysis.rs:21-66`): the
types of the initialization blocks that are reported. -/
def loops (allowed : Bool) : Stmt → List XType
  | .ifThen _ a => loops allowed a
  | .ifElse _ a b => loops allowed a ++ loops allowed b
  | .loop _ s => loops false s
  | .block ss => loopsAll allowed ss
  | .init t _ =>
      match t with
      | .signal _ | .bus _ _ | .component => if allowed then [] else [t]
      | _ => []
  | _ => []
/-- The loop over the statements of a block (`signal_declaration_analysis.rs:38-42`), and the one of
`check_signal_correctness` (7-20). -/
def loopsAll (allowed : Bool) : List Stmt → List XType
  | [] => []
  | s :: ss => loops allowed s ++ loopsAll allowed ss
end

/-- `is_bus_call_array` (`program_structure/src/abstract_syntax_tree/expression_impl.rs:134-143`). -/
def isBusCall : Ex → Bool
  | .busCall _ _ => true
  | .uniform v _ => isBusCall v
  | _ => false

/-- How many reports; `none` is a panic. -/
abbrev Count := Option Nat

/-- Two checks, one after the other. -/
def Count.plus (a b : Count) : Count := a.bind fun n => b.map fun m => n + m

/-- The names among accesses, each reported (`buses_free_of_invalid_statements.rs:158-164`). -/
def namedAccess (acc : List (Option String)) : Nat := (acc.filter Option.isSome).length

mutual
/-- `analyse_expression` (`type_analysis/src/analyzers/buses_free_of_invalid_statements.rs:102-149`)
with `analyse_access` (151-165). -/
def busEx (fs : List String) : Ex → Count
  | .num _ => some 0
  | .var _ acc idx => (busExs fs idx).map fun n => n + namedAccess acc
  | .node es => busExs fs es
  | .uniform v d => Count.plus (busEx fs v) (busEx fs d)
  | .call f args => (busExs fs args).map fun n => n + if fs.contains f then 0 else 1
  | .busCall _ _ => some 1
  | .sugar => none
/-- The same for a list. -/
def busExs (fs : List String) : List Ex → Count
  | [] => some 0
  | e :: es => Count.plus (busEx fs e) (busExs fs es)
end

mutual
/-- `analyse_statement` (`buses_free_of_invalid_statements.rs:22-88`). -/
def bus (fs : List String) : Stmt → Count
  | .mult _ _ _ => none
  | .ifThen _ _ => some 1
  | .ifElse _ _ _ => some 1
  | .loop _ _ => some 1
  | .block ss => busAll fs ss
  | .init _ ss => busAll fs ss
  | .decl _ t _ dims =>
      match t with
      | .signal k | .bus _ k => if k = .intermediate then busExs fs dims else some 1
      | _ => some 1
  | .subst _ _ acc idx _ e =>
      (busExs fs idx).map fun n => n + namedAccess acc + if isBusCall e then 0 else 1
  | .under _ _ e => some (if isBusCall e then 0 else 1)
  | .ceq _ _ _ => some 1
  | .log _ => some 1
  | .check _ => some 1
  | .ret _ => some 1
/-- The loops over statements (`buses_free_of_invalid_statements.rs:37-46`). -/
def busAll (fs : List String) : List Stmt → Count
  | [] => some 0
  | s :: ss => Count.plus (bus fs s) (busAll fs ss)
end

/-- A field: its name, its bus if it is one, the number of its dimensions. -/
abbrev Field := String × Option String × Nat

mutual
/-- `fill_fields` (`program_structure/src/program_library/bus_data.rs:118-164`): the fields in the
order in which they are declared. -/
def fields : Stmt → List Field
  | .block ss => fieldsAll ss
  | .init _ ss => fieldsAll ss
  | .decl _ t x dims =>
      match t with
      | .signal k => if k = .intermediate then [(x, none, dims.length)] else []
      | .bus b k => if k = .intermediate then [(x, some b, dims.length)] else []
      | _ => []
  | _ => []
/-- The loop over statements (`bus_data.rs:125-129`). -/
def fieldsAll : List Stmt → List Field
  | [] => []
  | s :: ss => fields s ++ fieldsAll ss
end

/-! ## What the execution does -/

/-- What running the body of a template leaves. -/
inductive Ev where
  | declared (id : Nat) (t : XType)
  | constrained (id : Nat)
deriving DecidableEq, Repr

mutual
/-- `execute_statement` on the body of a template
(`constraint_generation/src/execute.rs:231-858`), whatever the conditions are: either branch can be
taken and a loop can run any number of times.  Declarations are executed where they stand
(258-378), `<==` (379-508) and `===` (509 on) add constraints, `_ <== e` adds none (783-855).  `return`
does not occur in templates. -/
def Run : Stmt → List Ev → Prop
  | .ifThen _ a, tr => Run a tr ∨ tr = []
  | .ifElse _ a b, tr => Run a tr ∨ Run b tr
  | .loop _ s, tr => ∃ ts : List (List Ev), tr = ts.flatten ∧ ∀ t ∈ ts, Run s t
  | .init _ ss, tr => RunAll ss tr
  | .decl id t _ _, tr => tr = [.declared id t]
  | .subst id _ _ _ op _, tr => tr = if op = .constraint then [.constrained id] else []
  | .ceq id _ _, tr => tr = [.constrained id]
  | .block ss, tr => RunAll ss tr
  | _, tr => tr = []
/-- One statement after another. -/
def RunAll : List Stmt → List Ev → Prop
  | [], tr => tr = []
  | s :: ss, tr => ∃ a b, tr = a ++ b ∧ Run s a ∧ RunAll ss b
end

/-- Is it a component? -/
def XType.isComponent : XType → Bool
  | .component => true
  | .anonymous => true
  | _ => false

/-- Is it a variable? -/
def XType.isVar : XType → Bool
  | .var => true
  | _ => false

/-- The signals, buses and components declared in a run. -/
def wires (tr : List Ev) : List Nat :=
  tr.filterMap fun e =>
    match e with
    | .declared id t => if t.isVar then none else some id
    | .constrained _ => none

mutual
/-- An expression that can be evaluated: the rest ends in `unreachable!` or in the panic of
`safe_unwrap_to_single_arithmetic_expression` (`execute.rs:953-1259`, 883-888). -/
def Evaluates (fs : List String) : Ex → Prop
  | .num _ => True
  | .var _ acc idx => (∀ a ∈ acc, a = none) ∧ EvaluatesAll fs idx
  | .node es => EvaluatesAll fs es
  | .uniform v d => Evaluates fs v ∧ Evaluates fs d
  | .call f args => f ∈ fs ∧ EvaluatesAll fs args
  | .busCall _ _ => False
  | .sugar => False
/-- The same for a list. -/
def EvaluatesAll (fs : List String) : List Ex → Prop
  | [] => True
  | e :: es => Evaluates fs e ∧ EvaluatesAll fs es
end

/-- A bus, or an array of buses: `perform_assign` to a field of a bus that is being executed. -/
inductive BusValue : Ex → Prop where
  | call (f : String) (args : List Ex) : BusValue (.busCall f args)
  | array (v d : Ex) : BusValue v → BusValue (.uniform v d)

mutual
/-- `execute_bus_statement` (`execute.rs:861-951`): it ends without reaching `unreachable!` and
declares these fields. -/
def BusRun (fs : List String) : Stmt → List Field → Prop
  | .init _ ss, r => BusRunAll fs ss r
  | .decl _ t x dims, r =>
      EvaluatesAll fs dims ∧
      ((∃ k, t = .signal k ∧ r = [(x, none, dims.length)]) ∨
        ∃ b k, t = .bus b k ∧ r = [(x, some b, dims.length)])
  | .subst _ _ acc idx _ e, r =>
      (∀ a ∈ acc, a = none) ∧ EvaluatesAll fs idx ∧ BusValue e ∧ r = []
  | .block ss, r => BusRunAll fs ss r
  | _, _ => False
/-- `execute_sequence_of_bus_statements` (`execute.rs:2727-2738`). -/
def BusRunAll (fs : List String) : List Stmt → List Field → Prop
  | [], r => r = []
  | s :: ss, r => ∃ a b, r = a ++ b ∧ BusRun fs s a ∧ BusRunAll fs ss b
end

end Verif.Struct
