import Verif.Linear
import Mathlib.Data.List.Dedup

/-!
# Model of `build_clusters` (constraint_list/src/constraint_simplification.rs:19-99)

Vectors are lists indexed with `[i]?`; an index out of range is an abort (`.error .panic`).  The two `while` loops of
`shrink_jumps_and_find` get fuel.  The signals of a constraint form a hash set; their iteration order is given by an
oracle.
-/

namespace Verif.Clusters
open Verif.ModArith (Res Fail)
open Verif.Algebra Verif.Linear

/-- Iteration order of a hash set of signals at a given moment. -/
abbrev SetOrder := Nat → List Nat → List Nat

/-- The only assumption on iteration orders. -/
def SetOrder.Valid (ord : SetOrder) : Prop := ∀ n l, (ord n l).Perm l

/-- `C::take_cloned_signals` (algebra.rs:1095-1108) as a set: each signal once, the constant excluded. -/
def signalSet (c : C) : List Nat := c.takeSignals.dedup

/-- constraint_simplification.rs:19-23 `Cluster`. -/
structure Cluster where
  constraints : List C
  numSignals : Nat

/-- constraint_simplification.rs:32-38 `Cluster::merge`; the subtraction aborts on underflow in checked builds. -/
def Cluster.merge (c0 c1 : Cluster) : Res Cluster :=
  if c0.numSignals + c1.numSignals = 0 then .error .panic
  else .ok ⟨c0.constraints ++ c1.constraints, c0.numSignals + c1.numSignals - 1⟩

/-- The three vectors of `build_clusters` (69-71). -/
structure St where
  arena : List (Option Cluster)
  path : List Nat
  sig : List Nat

/-- constraint_simplification.rs:48-54: follow the path to its end, remembering the visited entries. -/
def walk (path : List Nat) : Nat → Nat → List Nat → Res (Nat × List Nat)
  | 0, _, _ => .error .outOfFuel
  | fuel + 1, current, jumps =>
    match path[current]? with
    | none => .error .panic
    | some next => if current ≠ next then walk path fuel next (current :: jumps) else .ok (current, jumps)

/-- constraint_simplification.rs:48-59 `shrink_jumps_and_find`: returns the end and the compressed path. -/
def find (path : List Nat) (org : Nat) : Res (Nat × List Nat) := do
  let (current, jumps) ← walk path (path.length + 1) org []
  .ok (current, jumps.foldl (fun path j => path.set j current) path)

/-- constraint_simplification.rs:61-70 `arena_merge`. -/
def arenaMerge (arena : List (Option Cluster)) (path : List Nat) (src dest : Nat) :
    Res (List (Option Cluster) × List Nat) := do
  let (currentDest, path) ← find path dest
  let (currentSrc, path) ← find path src
  match arena[currentDest]? with
  | none => .error .panic
  | some o0 =>
    let arena := arena.set currentDest none
    match arena[currentSrc]? with
    | none => .error .panic
    | some o1 => do
      let arena := arena.set currentSrc none
      let merged ← (o0.getD ⟨[], 0⟩).merge (o1.getD ⟨[], 0⟩)
      .ok (arena.set currentDest (some merged), path.set currentSrc currentDest)

/-- constraint_simplification.rs:82-88: the loop over the signals of one constraint. -/
def addSignals (noLinear dest : Nat) : List Nat → St → Res St
  | [], st => .ok st
  | s :: rest, st =>
    match st.sig[s]? with
    | none => .error .panic
    | some prev => do
      let sig := st.sig.set s dest
      if prev < noLinear then
        let (arena, path) ← arenaMerge st.arena st.path prev dest
        addSignals noLinear dest rest ⟨arena, path, sig⟩
      else addSignals noLinear dest rest ⟨st.arena, st.path, sig⟩

/-- constraint_simplification.rs:76-90: the loop over the constraints. -/
def addConstraints (ord : SetOrder) (noLinear : Nat) : List C → Nat → St → Res St
  | [], _, st => .ok st
  | c :: rest, step, st =>
    if c.isEmpty then addConstraints ord noLinear rest step st
    else do
      let signals := ord step (signalSet c)
      let dest := st.arena.length
      let st ← addSignals noLinear dest signals
        ⟨st.arena ++ [some ⟨[c], signals.length⟩], st.path ++ [dest], st.sig⟩
      addConstraints ord noLinear rest (step + 1) st

/-- constraint_simplification.rs:45-99 `build_clusters`. -/
def buildClusters (ord : SetOrder) (linear : List C) (noVars : Nat) : Res (List Cluster) := do
  let noLinear := linear.length
  let st ← addConstraints ord noLinear linear 0 ⟨[], [], List.replicate noVars noLinear⟩
  .ok (st.arena.filterMap fun o =>
    match o with
    | none => none
    | some c => if c.constraints.length ≠ 0 then some c else none)

end Verif.Clusters
