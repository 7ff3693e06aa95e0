import Verif.Exec

/-!
Model of `constraint_generation/src/execution_data/analysis.rs`: what symbolic execution records about
the expressions of a template instance.
-/

namespace Verif.Analysis

open Verif.ModArith Verif.Algebra

/-- analysis.rs:40-45, `ValuePOS`. -/
inductive ValuePOS where
  | bottom
  | val (v : Int)
  | top
  deriving DecidableEq, Repr

/-- analysis.rs:48-55, `least_upper_bound`. -/
def leastUpperBound (l r : ValuePOS) : ValuePOS :=
  match l, r with
  | v, .bottom => v
  | .bottom, v => v
  | .val a, .val b => if a = b then .val a else .top
  | _, _ => .top

/-- analysis.rs:6-9, `Analysis`. -/
structure Analysis where
  reached : List Bool
  computed : List ValuePOS
  deriving DecidableEq, Repr

/-- analysis.rs:11-13, `new`. -/
def new (idMax : Nat) : Analysis := ⟨List.replicate idMax false, List.replicate idMax .bottom⟩

/-- analysis.rs:15-17, `reached`; aborts if the identifier is out of range. -/
def setReached (a : Analysis) (id : Nat) : Res Analysis :=
  if id < a.reached.length then .ok { a with reached := a.reached.set id true } else .error .panic

/-- analysis.rs:18-20, `is_reached`. -/
def isReached (a : Analysis) (id : Nat) : Res Bool :=
  match a.reached[id]? with
  | some b => .ok b
  | none => .error .panic

/-- analysis.rs:22-30, `computed`. -/
def record (a : Analysis) (id : Nat) (value : AExpr Nat) : Res Analysis :=
  match a.computed[id]? with
  | none => .error .panic
  | some old =>
    match value with
    | .number v => .ok { a with computed := a.computed.set id (leastUpperBound old (.val v)) }
    | _ => .ok { a with computed := a.computed.set id .top }

/-- analysis.rs:32-37, `read_computed`. -/
def readComputed (a : Analysis) (id : Nat) : Res (Option Int) :=
  match a.computed[id]? with
  | none => .error .panic
  | some (.val v) => .ok (some v)
  | some _ => .ok none

/-- The records left by a sequence of visits (expression, value found), in this order. -/
def recordAll (a : Analysis) : List (Nat × AExpr Nat) → Res Analysis
  | [] => .ok a
  | (id, v) :: rest =>
    match record a id v with
    | .error e => .error e
    | .ok a' => recordAll a' rest

/-- The statements marked by a sequence of visits. -/
def reachAll (a : Analysis) : List Nat → Res Analysis
  | [] => .ok a
  | id :: rest =>
    match setReached a id with
    | .error e => .error e
    | .ok a' => reachAll a' rest

end Verif.Analysis
