import Verif.Algebra
import Verif.BMap

/-!
# Model of `circom_algebra/src/simplification_utils.rs`

Linear elimination.  Signals are `usize` (`Nat`); the constant key is `0`.

* `HashSet<usize>` `forbidden` is a list used only through membership.
* Hash iteration: where the code iterates over the keys of a coefficient map and the order is observable, the model
  asks an order oracle `ord : HashOrder`; the first argument is a step counter so that the same map may be iterated in
  different orders at different times.  Theorems assume only that the answer is a permutation of the keys.
* `loop`s get fuel; exhaustion is `.error .outOfFuel` and is shown not to happen.
* Not modelled: the dead functions `*_1`, `*_2` (114-137, 187-257, 350-365), the debugging functions
  (12-22, 488-502, 583-688).
-/

namespace Verif.Linear
open Verif.ModArith (Res Fail)
open Verif.Algebra

abbrev C := Constraint Nat
abbrev S := Substitution Nat

/-- Iteration order of a hash map at a given moment. -/
abbrev HashOrder := Nat → CMap Nat → List Nat

/-- The only assumption made on iteration orders. -/
def HashOrder.Valid (ord : HashOrder) : Prop := ∀ n m, (ord n m).Perm m.keys

/-- simplification_utils.rs:29-32 and 48-51 `can_be_taken`. -/
def canTake (forbidden : List Nat) (k : Nat) : Bool := !forbidden.contains k

/-- `SHNotNormalized` (line 11). -/
abbrev SHN := BMap (Int × S)
/-- `SH` (line 10). -/
abbrev SH := BMap S

/-- simplification_utils.rs:284-292 = 337-345: elimination of the signal solved twice. -/
def merge (coefficient : Int) (substitution : S) (conflictCoef : Int) (conflictSubs : S) (field : Int) : Res C := do
  let right := conflictSubs.decompose.2
  let left := substitution.decompose.2
  let newLeft := Algebra.mul (.number conflictCoef) left field
  let newRight := Algebra.mul (.number coefficient) right field
  let merge ← Algebra.sub newLeft newRight field
  match toConstraint merge field with
  | none => .error .panic
  | some work => .ok work.removeZeros

/-! ## Heuristic 3 (default) -/

/-- simplification_utils.rs:367-376 `take_signal_3`. -/
def takeSignal3 (forbidden : List Nat) (keys : List Nat) : Option Nat :=
  keys.foldl (fun ret k =>
    if canTake forbidden k then
      match ret with
      | none => some k
      | some v => some (max k v)
    else ret) none

/-- State of heuristic 3: `substitutions`, `lconst` and the step counter of the order oracle.
`deleted_symbols` is only written, never read (line 273). -/
structure St3 where
  subs : SHN
  lconst : List C
  step : Nat

/-- simplification_utils.rs:259-294 `treat_constraint_3`. -/
def treat3 (ord : HashOrder) (forbidden : List Nat) (field : Int) : Nat → St3 → C → Res St3
  | 0, _, _ => .error .outOfFuel
  | fuel + 1, st, work =>
    if work.isEmpty then .ok st
    else
      match takeSignal3 forbidden (ord st.step work.c) with
      | none => .ok { st with lconst := st.lconst ++ [work] }
      | some out => do
        let (coefficient, substitution) ← work.clearSignalFromLinearNN out field
        match st.subs.get substitution.frm with
        | none => .ok { st with subs := st.subs.insert substitution.frm (coefficient, substitution), step := st.step + 1 }
        | some (conflictCoef, conflictSubs) => do
          let work ← merge coefficient substitution conflictCoef conflictSubs field
          treat3 ord forbidden field fuel { st with step := st.step + 1 } work

/-- simplification_utils.rs:142-154 `substitution_process_3`: constraints are taken from the back. -/
def process3 (ord : HashOrder) (forbidden : List Nat) (field : Int) (fuel : Nat) (constraints : List C) : Res St3 :=
  constraints.reverse.foldlM (treat3 ord forbidden field fuel) ⟨[], [], 0⟩

/-! ## Normalisation and composition of substitutions -/

/-- Body of the loop at simplification_utils.rs:426-438. -/
def normalizeAux (field : Int) : SHN → List Int → Res SH
  | [], _ => .ok []
  | _ :: _, [] => .error .panic
  | (signal, (_, sub)) :: rest, inv :: invs =>
    match Substitution.new signal (Algebra.mul (mapIntoArith sub.rhs) (.number inv) field) with
    | none => .error .panic
    | some newSub => do
      let tree ← normalizeAux field rest invs
      .ok ((signal, newSub) :: tree)

/-- simplification_utils.rs:415-440 `normalize_substitutions`. -/
def normalize (subs : SHN) (field : Int) : Res SH := do
  let inverses ← ModArith.multiInv (subs.map fun e => e.2.1) field
  normalizeAux field subs inverses

/-- simplification_utils.rs:442-451 `take_substitutions_to_be_applied`. -/
def toBeApplied (noOverlap : List (Nat × S)) (keys : List Nat) : List S :=
  keys.filterMap fun s => BMap.get noOverlap s

/-- Loop of simplification_utils.rs:457-463 and 472-479: `entries` in processing order.  `no_overlap` is a hash map
with distinct keys; here the list of entries inserted so far. -/
def nonoverlap (ord : HashOrder) (field : Int) : Nat → List (Nat × S) → List (Nat × S) → List (Nat × S)
  | _, noOverlap, [] => noOverlap
  | step, noOverlap, (s, substitution) :: rest =>
    let subs := toBeApplied noOverlap (ord step substitution.rhs)
    let substitution := subs.foldl (fun acc sub => acc.applySubstitution sub field) substitution
    nonoverlap ord field (step + 1) (noOverlap ++ [(s, substitution)]) rest

/-! ## Heuristic 4 (occurrence counts) -/

/-- simplification_utils.rs:70-83: occurrence counts and first position of every takeable signal.  Both are hash maps;
they are only queried by key here (ascending association lists). -/
def countOccurrences (forbidden : List Nat) : List C → Nat → BMap Nat × BMap Nat → BMap Nat × BMap Nat
  | [], _, acc => acc
  | c :: cs, pos, acc =>
    countOccurrences forbidden cs (pos + 1) (c.c.keys.foldl (fun acc k =>
      if canTake forbidden k then
        match acc.1.get k with
        | some prev => (acc.1.insert k (prev + 1), acc.2)
        | none => (acc.1.insert k 1, acc.2.insert k pos)
      else acc) acc)

/-- simplification_utils.rs:66-91 `SignalsInformation::new`.  The iteration at 86-90 runs over a hash map but only
fills a `BTreeMap`, so its order is not observable. -/
def infoNew (forbidden : List Nat) (constraints : List C) : Res (BMap Nat × BMap Nat) := do
  let (occ, rep) := countOccurrences forbidden constraints 0 ([], [])
  let uniques ← occ.foldlM (fun uniques e =>
    if e.2 = 1 then
      match rep.get e.1 with
      | none => .error .panic
      | some pos => .ok (BMap.insert uniques e.1 pos)
    else .ok uniques) []
  .ok (occ, uniques)

/-- simplification_utils.rs:93-105 `remove_constraint`.  `*ocurrences - 1` on zero aborts in builds with overflow
checks; modelled as an abort. -/
def removeConstraint (forbidden : List Nat) (occ : BMap Nat) (c : C) : Res (BMap Nat) :=
  c.c.keys.foldlM (fun occ k =>
    if canTake forbidden k then
      match occ.get k with
      | some n => if n = 0 then .error .panic else .ok (occ.insert k (n - 1))
      | none => .ok occ
    else .ok occ) occ

/-- State of heuristic 4.  `order` is `order_signals` (most recently eliminated first) and, as a set,
`deleted_symbols` (lines 40-59). -/
structure St4 where
  subs : SHN
  lconst : List C
  order : List Nat
  occ : BMap Nat
  step : Nat

/-- simplification_utils.rs:378-412 `take_signal_4`; the loop over the remaining keys with `ret` and `ocurrences_ret`. -/
def takeSignal4 (forbidden order : List Nat) (occ : BMap Nat) : List Nat → Option Nat → Option Nat → Res (Option Nat)
  | [], ret, _ => .ok ret
  | k :: ks, ret, occRet =>
    if canTake forbidden k then
      if order.contains k then .ok (some k)
      else
        match occ.get k with
        | none => .error .panic
        | some n =>
          match occRet with
          | none => takeSignal4 forbidden order occ ks (some k) (some n)
          | some v =>
            if n < v then takeSignal4 forbidden order occ ks (some k) (some n)
            else if n = v then
              match ret with
              | none => .error .panic
              | some r =>
                if r < k then takeSignal4 forbidden order occ ks (some k) occRet
                else takeSignal4 forbidden order occ ks ret occRet
            else takeSignal4 forbidden order occ ks ret occRet
    else takeSignal4 forbidden order occ ks ret occRet

/-- simplification_utils.rs:296-310 `treat_unique_constraint_4`. -/
def treatUnique4 (field : Int) (st : St4) (work : C) (signal : Nat) : Res St4 := do
  let (coefficient, substitution) ← work.clearSignalFromLinearNN signal field
  .ok { st with
    subs := st.subs.insert substitution.frm (coefficient, substitution)
    occ := st.occ.remove signal
    order := signal :: st.order }

/-- simplification_utils.rs:312-347 `treat_constraint_4`. -/
def treat4 (ord : HashOrder) (forbidden : List Nat) (field : Int) : Nat → St4 → C → Res St4
  | 0, _, _ => .error .outOfFuel
  | fuel + 1, st, work =>
    if work.isEmpty then .ok st
    else do
      match ← takeSignal4 forbidden st.order st.occ (ord st.step work.c) none none with
      | none => .ok { st with lconst := st.lconst ++ [work] }
      | some out => do
        let (coefficient, substitution) ← work.clearSignalFromLinearNN out field
        match st.subs.get substitution.frm with
        | none => .ok { st with
            order := out :: st.order
            occ := st.occ.remove out
            subs := st.subs.insert substitution.frm (coefficient, substitution)
            step := st.step + 1 }
        | some (conflictCoef, conflictSubs) => do
          let work ← merge coefficient substitution conflictCoef conflictSubs field
          treat4 ord forbidden field fuel { st with step := st.step + 1 } work

/-- simplification_utils.rs:170-176: the constraints owning a signal that occurs nowhere else. -/
def uniques4 (forbidden : List Nat) (field : Int) : BMap Nat → List C → St4 → Res (List C × St4)
  | [], vec, st => .ok (vec, st)
  | (signal, index) :: rest, vec, st =>
    match vec[index]? with
    | none => .error .panic
    | some actual =>
      if actual.isEmpty then uniques4 forbidden field rest vec st
      else do
        let occ ← removeConstraint forbidden st.occ actual
        let st ← treatUnique4 field { st with occ := occ } actual signal
        uniques4 forbidden field rest (vec.set index Constraint.empty) st

/-- simplification_utils.rs:178-183: the remaining constraints, from the back. -/
def rest4 (ord : HashOrder) (forbidden : List Nat) (field : Int) (fuel : Nat) : List C → St4 → Res St4
  | [], st => .ok st
  | actual :: rest, st => do
    let occ ← removeConstraint forbidden st.occ actual
    let st ← treat4 ord forbidden field fuel { st with occ := occ } actual
    rest4 ord forbidden field fuel rest st

/-- simplification_utils.rs:156-185 `substitution_process_4`. -/
def process4 (ord : HashOrder) (forbidden : List Nat) (field : Int) (fuel : Nat) (constraints : List C) : Res St4 := do
  let (occ, uniques) ← infoNew forbidden constraints
  let (vec, st) ← uniques4 forbidden field uniques constraints ⟨[], [], [], occ, 0⟩
  rest4 ord forbidden field fuel vec.reverse st

/-- simplification_utils.rs:472-473: the substitutions in elimination order; `unwrap` on a missing one. -/
def inOrder (subs : SH) : List Nat → Res (List (Nat × S))
  | [] => .ok []
  | s :: rest =>
    match subs.get s with
    | none => .error .panic
    | some sub => do
      let rest ← inOrder (subs.remove s) rest
      .ok ((s, sub) :: rest)

/-! ## Entry point -/

/-- simplification_utils.rs:537-541 `Simplified`. -/
structure Simplified where
  constraints : List C
  substitutions : List S
  removed : List Nat

/-- simplification_utils.rs:574-578: the result lists are filled in hash order; the model uses insertion order (the
properties of the result are invariant under reordering). -/
def finish (constraints : List C) (nonOverlapping : List (Nat × S)) : Simplified :=
  ⟨constraints, nonOverlapping.map Prod.snd, nonOverlapping.map Prod.fst⟩

/-- simplification_utils.rs:566-571. -/
def simplify3 (ord : HashOrder) (forbidden : List Nat) (field : Int) (fuel : Nat) (constraints : List C) :
    Res Simplified := do
  let st ← process3 ord forbidden field fuel constraints
  let normalized ← normalize st.subs field
  .ok (finish st.lconst (nonoverlap ord field st.step [] normalized))

/-- simplification_utils.rs:560-565. -/
def simplify4 (ord : HashOrder) (forbidden : List Nat) (field : Int) (fuel : Nat) (constraints : List C) :
    Res Simplified := do
  let st ← process4 ord forbidden field fuel constraints
  let normalized ← normalize st.subs field
  let entries ← inOrder normalized st.order
  .ok (finish st.lconst (nonoverlap ord field st.step [] entries))

/-- simplification_utils.rs:543-581 `full_simplification`. -/
def fullSimplification (ord : HashOrder) (forbidden : List Nat) (field : Int) (useOldHeuristics : Bool) (fuel : Nat)
    (constraints : List C) : Res Simplified :=
  if 350 ≤ constraints.length ∧ constraints.length < 1000000 ∧ useOldHeuristics = false then
    simplify4 ord forbidden field fuel constraints
  else simplify3 ord forbidden field fuel constraints

end Verif.Linear
