import Verif.Bytes
import Verif.Linear

/-!
# Model of `constant_tracking/src/lib.rs` and `circom_algebra/src/constraint_storage/`

`&mut self` becomes a returned state.  A coefficient map is a list whose order is the iteration order; the theorems hold for all
lists, so for all iteration orders.
-/

namespace Verif.Storage
open Verif.ModArith (Res Fail)
open Verif.Algebra Verif.Linear Verif.Bytes

/-- constant_tracking/src/lib.rs:5-11 `ConstantTracker`; the hash map `lookup` is an association list, newest entry first. -/
structure Tracker (α : Type) where
  lookup : List (α × Nat)
  constants : List α

variable {α : Type} [DecidableEq α]

/-- constant_tracking/src/lib.rs:17-19 `new`. -/
def Tracker.new : Tracker α := ⟨[], []⟩

/-- constant_tracking/src/lib.rs:21-23 `get_id`. -/
def Tracker.getId (t : Tracker α) (constant : α) : Option Nat :=
  (t.lookup.find? fun e => decide (e.1 = constant)).map Prod.snd

/-- constant_tracking/src/lib.rs:25-34 `insert`. -/
def Tracker.insert (t : Tracker α) (constant : α) : Nat × Tracker α :=
  match t.getId constant with
  | some id => (id, t)
  | none => (t.constants.length, ⟨(constant, t.constants.length) :: t.lookup, t.constants ++ [constant]⟩)

/-- constant_tracking/src/lib.rs:36-42 `get_constant`. -/
def Tracker.getConstant (t : Tracker α) (id : Nat) : Option α :=
  if id < t.constants.length then t.constants[id]? else none

/-- constant_tracking/src/lib.rs:44-46 `next_id`. -/
def Tracker.nextId (t : Tracker α) : Nat := t.constants.length

/-- A sequence of inserts: the ids handed out and the final tracker. -/
def Tracker.insertAll : List α → Tracker α → List Nat × Tracker α
  | [], t => ([], t)
  | c :: cs, t =>
    let (id, t) := t.insert c
    let (ids, t) := insertAll cs t
    (id :: ids, t)

/-- constraint_storage/mod.rs:12 `CompressedExpr`: constant id and signal. -/
abbrev CExpr := List (Nat × Nat)

/-- constraint_storage/mod.rs:13 `CompressedConstraint`. -/
abbrev CConstraint := CExpr × CExpr × CExpr

/-- `FieldTracker`. -/
abbrev FTracker := Tracker (List Nat)

/-- constraint_storage/logic.rs:4-12 `code_expression`. -/
def codeExpression : CMap Nat → FTracker → CExpr × FTracker
  | [], t => ([], t)
  | (var, coeff) :: rest, t =>
    let (id, t) := t.insert (toSignedBytesLE coeff)
    let (e, t) := codeExpression rest t
    ((id, var) :: e, t)

/-- constraint_storage/logic.rs:14-19 `code_constraint`. -/
def codeConstraint (c : C) (t : FTracker) : CConstraint × FTracker :=
  let (a, t) := codeExpression c.a t
  let (b, t) := codeExpression c.b t
  let (c, t) := codeExpression c.c t
  ((a, b, c), t)

/-- constraint_storage/logic.rs:21-29 `decode_expr`; an unknown constant aborts. -/
def decodeExpr (e : CExpr) (t : FTracker) : Res (CMap Nat) :=
  e.foldlM (fun m p => match t.getConstant p.1 with
    | none => .error .panic
    | some raw => .ok (CMap.insert m p.2 (fromSignedBytesLE raw))) []

/-- constraint_storage/logic.rs:31-34 `decode_constraint`. -/
def decodeConstraint (c : CConstraint) (t : FTracker) : Res C := do
  let a ← decodeExpr c.1 t
  let b ← decodeExpr c.2.1 t
  let c ← decodeExpr c.2.2 t
  .ok ⟨a, b, c⟩

/-- constraint_storage/mod.rs:16-19 `ConstraintStorage`. -/
structure Store where
  tracker : FTracker
  constraints : List CConstraint

/-- constraint_storage/mod.rs:22-24 `new`. -/
def Store.new : Store := ⟨Tracker.new, []⟩

/-- constraint_storage/mod.rs:26-31 `add_constraint`. -/
def Store.add (s : Store) (c : C) : Nat × Store :=
  let (k, t) := codeConstraint c s.tracker
  (s.constraints.length, ⟨t, s.constraints ++ [k]⟩)

/-- constraint_storage/mod.rs:33-39 `read_constraint`. -/
def Store.read (s : Store) (id : Nat) : Res (Option C) :=
  match s.constraints[id]? with
  | none => .ok none
  | some k => do .ok (some (← decodeConstraint k s.tracker))

/-- constraint_storage/mod.rs:41-45 `replace`. -/
def Store.replace (s : Store) (id : Nat) (new : C) : Store :=
  if id < s.constraints.length then
    let (k, t) := codeConstraint new s.tracker
    ⟨t, s.constraints.set id k⟩
  else s

/-- The loop of `extract_with` (50-57): (removed, kept). -/
def extractLoop (filter : C → Bool) (t : FTracker) : List CConstraint → Res (List C × List CConstraint)
  | [] => .ok ([], [])
  | k :: ks => do
    let decoded ← decodeConstraint k t
    let (removed, kept) ← extractLoop filter t ks
    if filter decoded then .ok (decoded :: removed, kept) else .ok (removed, k :: kept)

/-- constraint_storage/mod.rs:47-59 `extract_with`. -/
def Store.extractWith (s : Store) (filter : C → Bool) : Res (List C × Store) := do
  let (removed, kept) ← extractLoop filter s.tracker s.constraints
  .ok (removed, ⟨s.tracker, kept⟩)

/-- constraint_storage/mod.rs:61-63 `get_ids`. -/
def Store.getIds (s : Store) : List Nat := List.range s.constraints.length

/-- constraint_storage/mod.rs:65-67 `no_constants`. -/
def Store.noConstants (s : Store) : Nat := s.tracker.nextId

/-- One call of a mutating method. -/
inductive Op where
  | add (c : C)
  | replace (id : Nat) (c : C)
  | extract (filter : C → Bool)

/-- What a call returns. -/
inductive Out where
  | id (n : Nat)
  | unit
  | removed (l : List C)

/-- Run a sequence of calls. -/
def Store.run : List Op → Store → Res (List Out × Store)
  | [], s => .ok ([], s)
  | .add c :: ops, s => do
    let (id, s) := s.add c
    let (outs, s) ← run ops s
    .ok (.id id :: outs, s)
  | .replace id c :: ops, s => do
    let (outs, s) ← run ops (s.replace id c)
    .ok (.unit :: outs, s)
  | .extract f :: ops, s => do
    let (removed, s) ← s.extractWith f
    let (outs, s) ← run ops s
    .ok (.removed removed :: outs, s)

end Verif.Storage
