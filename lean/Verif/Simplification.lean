import Verif.Clusters

/-!
# Model of `constraint_list/src/constraint_simplification.rs` and `non_linear_utils.rs`

* `HashMap<usize, _>` (`SEncoded`, `SignalToConstraints`, `SignalMap`) is a `BMap` (ascending association list): the
  iteration order of these maps is never observable except through lists whose order the model takes from an oracle.
* Hash sets of signals and hash maps are iterated in an order chosen by an oracle (`Sched`); results of worker threads
  arrive in an order chosen by an oracle.
* `ConstraintStorage` is the list of its constraints; `Verif/Storage.lean` proves that the real storage behaves so.
* The nonlinear constraints are given as the list the `EncodingIterator` enumerates; `Verif/Dag.lean` models the
  iterator.
* `non_linear_simplification::simplify` (line 689) returns an empty list and changes nothing; it is left out.
* Not modelled: the substitution log (`log_substitutions`), timing.
-/

namespace Verif.Simplification
open Verif.ModArith (Res Fail)
open Verif.Algebra Verif.Linear Verif.Clusters

/-- All nondeterminism of one run.  The first argument of every field is the phase (0 equalities, 1 constants, 2 first
linear phase, 3 storage, `4 + n` round `n`). -/
structure Sched where
  /-- order of a set of signals: phase, moment, set -/
  sets : Nat → SetOrder
  /-- order of coefficient maps inside the elimination of one cluster: phase, cluster -/
  hash : Nat → Nat → HashOrder
  /-- arrival order of `n` worker results -/
  arrive : Nat → Nat → List Nat
  /-- order in which the `n` substitutions of one cluster leave the hash map (simplification_utils.rs:575-578): phase,
  cluster, number -/
  leave : Nat → Nat → Nat → List Nat

/-- The only assumptions on schedules: everything is delivered exactly once. -/
structure Sched.Valid (s : Sched) : Prop where
  sets : ∀ ph, (s.sets ph).Valid
  hash : ∀ ph k, (s.hash ph k).Valid
  arrive : ∀ ph n, (s.arrive ph n).Perm (List.range n)
  leave : ∀ ph k n, (s.leave ph k n).Perm (List.range n)

/-- The elements of a list in the order given by a list of positions. -/
def reorder {α : Type} (order : List Nat) (l : List α) : List α := order.filterMap fun i => l[i]?

/-- `SEncoded`. -/
abbrev SEnc := BMap (AExpr Nat)

/-- `C::take_cloned_signals_ordered` (algebra.rs:1095-1108 with a `BTreeSet`): ascending, each signal once. -/
def orderedSignals (c : C) : List Nat := BMap.keys (c.takeSignals.foldl (fun m k => BMap.insert m k ()) [])

/-! ## Fast substitutions (simplification_utils.rs:496-527) -/

/-- One iteration of simplification_utils.rs:499-505. -/
def fastStep (enc : SEnc) (field : Int) (st : C × Bool) (signal : Nat) : Res (C × Bool) :=
  match BMap.get enc signal with
  | none => .ok st
  | some e =>
    match Substitution.new signal e with
    | none => .error .panic
    | some sub => .ok (st.1.applySubstitution sub field, true)

/-- simplification_utils.rs:496-507 `fast_encoded_constraint_substitution`; `ord` orders the signal set. -/
def fastConstraint (ord : List Nat → List Nat) (enc : SEnc) (field : Int) (c : C) : Res (C × Bool) :=
  (ord (signalSet c)).foldlM (fastStep enc field) (c, false)

/-- simplification_utils.rs:520-527 `build_encoded_fast_substitutions`: a later entry replaces an earlier one. -/
def buildEncoded (subs : List S) : SEnc :=
  subs.foldl (fun m s => BMap.insert m s.decompose.1 s.decompose.2) []

/-- `if applied { C::fix_constraint(..) }`. -/
def fixIf (applied : Bool) (c : C) (field : Int) : Res C := if applied then c.fix field else .ok c

/-- The loops at constraint_simplification.rs:494-498, 499-503, 520-524, 569-573: substitute, clean if something was
substituted. -/
def substituteAll (ord : SetOrder) (enc : SEnc) (field : Int) : Nat → List C → Res (List C)
  | _, [] => .ok []
  | n, c :: cs => do
    let (c, applied) ← fastConstraint (ord n) enc field c
    let c ← fixIf applied c field
    let cs ← substituteAll ord enc field (n + 1) cs
    .ok (c :: cs)

/-! ## Equalities -/

/-- `S::new(..).unwrap()`. -/
def newSub (frm : Nat) (e : AExpr Nat) : Res S :=
  match Substitution.new frm e with
  | none => .error .panic
  | some s => .ok s

/-- constraint_simplification.rs:178-182: the constraint `signal = rh`. -/
def equalityConstraint (field : Int) (rh signal : Nat) : Res C := do
  let e ← Algebra.sub (.signal signal) (.signal rh) field
  match toConstraint e field with
  | none => .error .panic
  | some c => .ok c

/-- `std::cmp::min` folded over the signals seen so far (163, 165). -/
def minOf (l : List Nat) : Option Nat :=
  l.foldl (fun acc s => match acc with | none => some s | some m => some (min m s)) none

/-- constraint_simplification.rs:126-196 `eq_cluster_simplification`. -/
def eqCluster (ord : List Nat → List Nat) (forbidden : List Nat) (field : Int) (constraints : List C) :
    Res (List S × List C) :=
  match constraints with
  | [c] =>
    match orderedSignals c with
    | s0 :: s1 :: _ =>
      if forbidden.contains s0 && forbidden.contains s1 then .ok ([], [c])
      else if forbidden.contains s0 then do .ok ([← newSub s1 (.signal s0)], [])
      else if forbidden.contains s1 then do .ok ([← newSub s0 (.signal s1)], [])
      else do .ok ([← newSub (if s0 > s1 then s0 else s1) (.signal (if s0 > s1 then s1 else s0))], [])
    | _ => .error .panic
  | cs => do
    let signals := cs.flatMap orderedSignals
    let kept := signals.filter fun s => forbidden.contains s
    let gone := signals.filter fun s => !forbidden.contains s
    let remains := BMap.keys (kept.foldl (fun m k => BMap.insert m k ()) [])
    let remove := gone.dedup
    let (rh, remains, remove) ← (match minOf kept, minOf gone with
      | some s, _ => Except.ok (s, remains.filter (fun x => decide (x ≠ s)), remove)
      | none, some s => .ok (s, remains, remove.filter fun x => decide (x ≠ s))
      | none, none => .error .panic)
    let cons ← remains.mapM (equalityConstraint field rh)
    let subs ← (ord remove).mapM fun s => newSub s (.signal rh)
    .ok (subs, cons)

/-- Run the jobs of all clusters, numbered from `n`. -/
def runClusters {α : Type} (job : Nat → List C → Res α) : Nat → List Cluster → Res (List α)
  | _, [] => .ok []
  | n, k :: ks => do
    let r ← job n k.constraints
    let rs ← runClusters job (n + 1) ks
    .ok (r :: rs)

/-- constraint_simplification.rs:198-251 `eq_simplification`: size-1 clusters are treated inline, the others by workers;
the constraints are collected in cluster order, the substitutions in treatment order. -/
def eqSimplification (sched : Sched) (equalities : List C) (forbidden : List Nat) (noVars : Nat) (field : Int) :
    Res (List S × List C) := do
  let clusters ← buildClusters (sched.sets 0) equalities noVars
  let results ← runClusters (fun id cs => do .ok (cs.length, ← eqCluster (sched.sets 0 (equalities.length + id)) forbidden
    field cs)) 0 clusters
  let single := results.filter fun r => decide (r.1 = 1)
  let others := results.filter fun r => !decide (r.1 = 1)
  let received := reorder (sched.arrive 0 others.length) others
  .ok ((single ++ received).flatMap (fun r => r.2.1), results.flatMap fun r => r.2.2)

/-! ## Constants -/

/-- constraint_simplification.rs:253-273 `constant_eq_simplification`. -/
def constantEq (forbidden : List Nat) (field : Int) : List C → Res (List S × List C)
  | [] => .ok ([], [])
  | c :: cs =>
    match (orderedSignals c).getLast? with
    | none => .error .panic
    | some signal =>
      if forbidden.contains signal then do
        let (subs, cons) ← constantEq forbidden field cs
        .ok (subs, c :: cons)
      else do
        let sub ← c.clearSignalFromLinear signal field
        let (subs, cons) ← constantEq forbidden field cs
        .ok (sub :: subs, cons)

/-! ## Linear constraints -/

/-- constraint_simplification.rs:275-323 `linear_simplification`; `fuel` bounds the loops of `full_simplification` as a
function of the cluster. -/
def linearSimplification (sched : Sched) (ph : Nat) (fuel : List C → Nat) (linear : List C) (forbidden : List Nat)
    (noLabels : Nat) (field : Int) (old : Bool) : Res (List S × List C) := do
  let clusters ← buildClusters (sched.sets ph) linear noLabels
  let results ← runClusters (fun id cs => do
    let r ← fullSimplification (sched.hash ph id) forbidden field old (fuel cs) cs
    .ok (reorder (sched.leave ph id r.substitutions.length) r.substitutions, r.constraints)) 0 clusters
  let received := reorder (sched.arrive ph results.length) results
  .ok (received.flatMap Prod.fst, received.flatMap Prod.snd)

/-! ## Relevant signals -/

/-- constraint_simplification.rs:404-413 `unwrapped_signal`. -/
def unwrappedSignal (map : SEnc) (signal : Nat) : Option Nat :=
  match BMap.get map signal with
  | some (.signal symbol) => some symbol
  | _ => none

/-- constraint_simplification.rs:398-430 `build_relevant_set` over the enumerated constraints (a set, as a list). -/
def relevantSet (nonLinear : List C) (renames deletes : SEnc) : List Nat :=
  ((nonLinear.flatMap signalSet).map fun s => (unwrappedSignal renames s).getD s).filter
    fun s => !(BMap.get deletes s).isSome

/-- constraint_simplification.rs:432-439 `remove_not_relevant`. -/
def removeNotRelevant (subs : SEnc) (relevant : List Nat) : SEnc :=
  subs.filter fun e => relevant.contains e.1

/-! ## Nonlinear constraints -/

/-- non_linear_utils.rs:15-17: apply every frame in turn. -/
def applyFrames (ord : Nat → List Nat → List Nat) (field : Int) : Nat → List SEnc → C → Res C
  | _, [], c => .ok c
  | n, f :: fs, c => do
    let (c, _) ← fastConstraint (ord n) f field c
    applyFrames ord field (n + 1) fs c

/-- non_linear_utils.rs:6-32 `obtain_and_simplify_non_linear` over the enumerated constraints: (linear, stored). -/
def simplifyNonLinear (ord : SetOrder) (frames : List SEnc) (field : Int) : Nat → List C → Res (List C × List C)
  | _, [] => .ok ([], [])
  | n, c :: cs => do
    let c ← applyFrames ord field n frames c
    let c ← c.fix field
    let (linear, stored) ← simplifyNonLinear ord frames field (n + frames.length) cs
    if c.isLinear then .ok (c :: linear, stored) else .ok (linear, c :: stored)

/-! ## The signal-to-constraints map -/

/-- `SignalToConstraints`. -/
abbrev SigMap := BMap (List Nat)

/-- constraint_simplification.rs:333-340 (also 370-377, 653-660, 672-679). -/
def pushId (map : SigMap) (signal id : Nat) : SigMap :=
  match BMap.get map signal with
  | some l => BMap.insert map signal (l ++ [id])
  | none => BMap.insert map signal [id]

/-- constraint_simplification.rs:325-343 `build_non_linear_signal_map` (the order of a signal set only affects the map's
internal order). -/
def buildMap : List C → Nat → SigMap → SigMap
  | [], _, map => map
  | c :: cs, id, map => buildMap cs (id + 1) ((signalSet c).foldl (fun m s => pushId m s id) map)

/-- constraint_simplification.rs:361-380: one substitution on the listed constraints: (linear ids, storage, map). -/
def processIds (field : Int) (sub : S) : List Nat → List C → SigMap → Res (List Nat × List C × SigMap)
  | [], storage, map => .ok ([], storage, map)
  | id :: ids, storage, map =>
    match storage[id]? with
    | none => .error .panic
    | some c => do
      let c ← (c.applySubstitution sub field).fix field
      let (linear, storage, map) ← processIds field sub ids (storage.set id c)
        (sub.rhs.keys.foldl (fun m s => pushId m s id) map)
      .ok (if c.isLinear then id :: linear else linear, storage, map)

/-- constraint_simplification.rs:382-389. -/
def substituteMap (field : Int) : List S → List C → SigMap → Res (List Nat × List C × SigMap)
  | [], storage, map => .ok ([], storage, map)
  | sub :: subs, storage, map =>
    match BMap.get map sub.frm with
    | none => substituteMap field subs storage map
    | some ids => do
      let (linear, storage, map) ← processIds field sub ids storage map
      let (linear', storage, map) ← substituteMap field subs storage map
      .ok (linear ++ linear', storage, map)

/-- constraint_simplification.rs:390-395: move the constraints that became linear out of the storage. -/
def extractLinear : List Nat → List C → Res (List C × List C)
  | [], storage => .ok ([], storage)
  | id :: ids, storage =>
    match storage[id]? with
    | none => .error .panic
    | some c => do
      let (linear, storage) ← extractLinear ids (storage.set id Constraint.empty)
      .ok (c :: linear, storage)

/-- constraint_simplification.rs:345-396 `apply_substitution_to_map`: (linear, storage, map). -/
def applyToMap (field : Int) (subs : List S) (storage : List C) (map : SigMap) : Res (List C × List C × SigMap) := do
  let (ids, storage, map) ← substituteMap field subs storage map
  let (linear, storage) ← extractLinear ids storage
  .ok (linear, storage, map)

/-! ## Rounds -/

/-- constraint_simplification.rs:629-634: substitute one after the other, then clean. -/
def substituteConst (field : Int) (subs : List S) (c : C) : Res C :=
  (subs.foldl (fun c s => c.applySubstitution s field) c).fix field

/-- The variables of `simplification` changed by the rounds (602-646). -/
structure RoundState where
  linear : List C
  lconst : List C
  storage : List C
  map : SigMap
  deleted : List Nat

/-- constraint_simplification.rs:613-646: the `while apply_round` loop; the first argument is `no_rounds`.  `usize` is
modelled by `Nat`. -/
def rounds (sched : Sched) (fuel : List C → Nat) (forbidden : List Nat) (noLabels : Nat) (field : Int) (old : Bool) :
    Nat → Nat → RoundState → Res RoundState
  | 0, _, st => .ok st
  | noRounds + 1, ph, st =>
    if st.linear.isEmpty then .ok st
    else do
      let (subs, constants) ← linearSimplification sched ph fuel st.linear forbidden noLabels field old
      let deleted := st.deleted ++ subs.map fun s => s.frm
      let lconst ← (st.lconst ++ constants).mapM (substituteConst field subs)
      let (linear, storage, map) ← applyToMap field subs st.storage st.map
      rounds sched fuel forbidden noLabels field old noRounds (ph + 1) ⟨linear, lconst, storage, map, deleted⟩

/-- constraint_simplification.rs:648-687: append constraints to the storage and their signals to the map. -/
def addAll : List C → List C × SigMap → List C × SigMap
  | [], st => st
  | c :: cs, (storage, map) =>
    addAll cs (storage ++ [c], (signalSet c).foldl (fun m s => pushId m s storage.length) map)

/-! ## Witness renumbering -/

/-- constraint_simplification.rs:101-124 `rebuild_witness`: loop over the signals `n, n+1, …`; state: number of signals
left, map, queue of free positions, deleted signals. -/
def rebuildLoop (forbidden : List Nat) (used : Nat → Bool) (removeUnused : Bool) :
    Nat → Nat → BMap Nat → List Nat → List Nat → BMap Nat × List Nat
  | 0, _, map, _, deleted => (map, deleted)
  | left + 1, signal, map, free, deleted =>
    if deleted.contains signal then
      rebuildLoop forbidden used removeUnused left (signal + 1) map (free ++ [signal]) deleted
    else if removeUnused && !forbidden.contains signal && !used signal then
      rebuildLoop forbidden used removeUnused left (signal + 1) map (free ++ [signal]) (deleted ++ [signal])
    else
      match free with
      | pos :: free => rebuildLoop forbidden used removeUnused left (signal + 1) (BMap.insert map signal pos)
          (free ++ [signal]) deleted
      | [] => rebuildLoop forbidden used removeUnused left (signal + 1) (BMap.insert map signal signal) [] deleted

/-- constraint_simplification.rs:101-124 `rebuild_witness`: the map and the updated `deleted`. -/
def rebuildWitness (maxSignal : Nat) (deleted forbidden : List Nat) (used : Nat → Bool) (removeUnused : Bool) :
    BMap Nat × List Nat :=
  rebuildLoop forbidden used removeUnused maxSignal 0 [] [] deleted

/-! ## Entry point -/

/-- constraint_list/src/lib.rs:107-127 `Simplifier` (fields read by `simplification`; `nonLinear` is the enumeration of
`dag_encoding`). -/
structure Input where
  field : Int
  nonLinear : List C
  noPublicInputs : Nat
  noPublicOutputs : Nat
  noPrivateInputs : Nat
  forbidden : List Nat
  consEqualities : List C
  equalities : List C
  linear : List C
  maxSignal : Nat
  noRounds : Nat
  flagS : Bool
  oldHeuristics : Bool

/-- Result of the phases before the rounds (442-600). -/
structure Start where
  lconst : List C
  linear : List C
  storage : List C
  deleted : List Nat

/-- constraint_simplification.rs:442-600. -/
def start (sched : Sched) (fuel : List C → Nat) (smp : Input) : Res Start := do
  let relevant1 := relevantSet smp.nonLinear [] []
  -- single assignments
  let (subs, lconst) ← eqSimplification sched smp.equalities smp.forbidden smp.maxSignal smp.field
  let single := buildEncoded subs
  let linear ← substituteAll (sched.sets 0) single smp.field (2 * smp.equalities.length) smp.linear
  let consEqualities ← substituteAll (sched.sets 0) single smp.field (2 * smp.equalities.length + linear.length)
    smp.consEqualities
  let deleted := BMap.keys single
  let single := removeNotRelevant single relevant1
  -- constant assignments
  let (subs, cons) ← constantEq smp.forbidden smp.field consEqualities
  let lconst := lconst ++ cons
  let constants := buildEncoded subs
  let linear ← substituteAll (sched.sets 1) constants smp.field 0 linear
  let deleted := deleted ++ BMap.keys constants
  let relevant2 := relevantSet smp.nonLinear single constants
  -- linear assignments
  let (linearSubs, lconst, deleted) ← (if !smp.flagS then do
      let (subs, cons) ← linearSimplification sched 2 fuel linear smp.forbidden smp.maxSignal smp.field smp.oldHeuristics
      let deleted := deleted ++ subs.map fun s => s.frm
      let enc := buildEncoded (subs.filter fun s => relevant2.contains s.frm)
      let lconst ← substituteAll (sched.sets 2) enc smp.field linear.length (lconst ++ cons)
      .ok (enc, lconst, deleted)
    else .ok ([], lconst ++ linear, deleted))
  -- nonlinear constraints
  let (withLinear, storage) ← simplifyNonLinear (sched.sets 3) [single, constants, linearSubs] smp.field 0 smp.nonLinear
  .ok ⟨lconst, withLinear, storage, deleted⟩

/-- Result of `simplification`: constraints, witness map, number of private inputs in the witness. -/
structure Output where
  storage : List C
  map : BMap Nat
  privateInputs : Nat

/-- constraint_simplification.rs:715-722: deleted inputs (`deleted` is a set). -/
def deletedInputs (smp : Input) (deleted : List Nat) : Nat :=
  (deleted.dedup.filter fun s => decide (smp.noPublicOutputs + 1 ≤ s ∧
    s ≤ smp.noPublicOutputs + smp.noPublicInputs + smp.noPrivateInputs)).length

/-- The state after the rounds and the substitutions (602-646). -/
def simplified (sched : Sched) (fuel : List C → Nat) (smp : Input) : Res RoundState := do
  let s ← start sched fuel smp
  let st : RoundState := ⟨s.linear, s.lconst, s.storage, buildMap s.storage 0 [], s.deleted⟩
  if smp.flagS then .ok st
  else rounds sched fuel smp.forbidden smp.maxSignal smp.field smp.oldHeuristics (smp.noRounds - 1) 4 st

/-- constraint_simplification.rs:648-730: the final storage, the witness map and the input count.  The subtraction
aborts on underflow in checked builds. -/
def conclude (smp : Input) (st : RoundState) : Res Output := do
  let lconst ← st.lconst.mapM fun c => c.fix smp.field
  let (storage, map) := addAll lconst (addAll st.linear (st.storage, st.map))
  let storage := storage.filter fun c => !c.isEmpty
  let (witness, deleted) := rebuildWitness smp.maxSignal st.deleted smp.forbidden (fun s => (BMap.get map s).isSome) true
  if smp.noPrivateInputs < deletedInputs smp deleted then .error .panic
  else .ok ⟨storage, witness, smp.noPrivateInputs - deletedInputs smp deleted⟩

/-- constraint_simplification.rs:442-730 `simplification`. -/
def simplification (sched : Sched) (fuel : List C → Nat) (smp : Input) : Res Output := do
  let st ← simplified sched fuel smp
  conclude smp st

end Verif.Simplification
