import Verif.Dag
import Mathlib.Data.List.Dedup
import Mathlib.Data.List.Sort

/-!
# Model of the `--inspect` analysis (`dag/src/constraint_correctness_analysis.rs`)

* The two hash maps of `visit_node` have the same keys; they are one list of rows `(number, name, appearances)`.
* `underscored_signals` of the executed templates (executed_template.rs:84) are given by a function from the number of the template.
* The loop over the hash map of groups goes in an unspecified order; here in the order of insertion.
* Reports keep what the two messages say: kind, template, signals, number of signals.  Not modelled: the wording, overflow of counters.
-/

namespace Verif.Inspect
open Verif.ModArith (Res Fail)
open Verif.Algebra Verif.Dag

/-- The maps `rev_correspondence` and `constraint_counter` (constraint_correctness_analysis.rs:102-103). -/
abbrev Rows := List (Nat × Name × Nat)

/-- constraint_correctness_analysis.rs:106-107: a signal enters both maps with no appearances. -/
def Rows.enter : Rows → Nat → Name → Rows
  | [], i, n => [(i, n, 0)]
  | r :: rs, i, n => if r.1 = i then (i, n, 0) :: rs else r :: Rows.enter rs i n

/-- constraint_correctness_analysis.rs:104-109: the signals the template can reach. -/
def rowsOf (n : Node) : Rows :=
  n.correspondence.foldl (fun rs e => if n.reachables.contains e.2 then rs.enter e.2 e.1 else rs) []

/-- constraint_correctness_analysis.rs:113-114, 119-120: one more appearance; an unknown signal aborts (`unwrap`). -/
def bump : Rows → Nat → Res Rows
  | [], _ => .error .panic
  | r :: rs, s => if r.1 = s then .ok ((r.1, r.2.1, r.2.2 + 1) :: rs) else do
    let rs ← bump rs s
    .ok (r :: rs)

/-- constraint_correctness_analysis.rs:110-121: constraints first, then the signals assigned to `_`. -/
def countRows (n : Node) (underscored : List Nat) : Res Rows := do
  let rs ← n.constraints.foldlM (fun rs c => c.takeSignals.dedup.foldlM bump rs) (rowsOf n)
  underscored.foldlM bump rs

/-- constraint_correctness_analysis.rs:54-56: an entry of `signal_stats`. -/
structure Stat where
  name : Name
  isLocal : Bool
  appearances : Nat
  deriving DecidableEq, Repr

/-- `String::cmp`: bytes of UTF-8 compare as code points do. -/
def nameLe : Name → Name → Bool
  | [], _ => true
  | _ :: _, [] => false
  | a :: x, b :: y => if a.toNat < b.toNat then true else if b.toNat < a.toNat then false else nameLe x y

/-- constraint_correctness_analysis.rs:100-139 `visit_node`. -/
def visitNode (n : Node) (underscored : List Nat) : Res (List Stat) := do
  let rs ← countRows n underscored
  let stats := rs.map fun r => (⟨r.2.1, n.locals.contains r.1, r.2.2⟩ : Stat)
  .ok (stats.insertionSort fun a b => nameLe a.name b.name = true)

/-- `str::split` at a character. -/
def splitAt (c : Char) : Name → List Name
  | [] => [[]]
  | x :: s => if x = c then [] :: splitAt c s else
    match splitAt c s with
    | [] => [[x]]
    | q :: qs => (x :: q) :: qs

/-- constraint_correctness_analysis.rs:59-70 `split_signal_name_index`. -/
def stem (name : Name) : Name :=
  let parts := splitAt '.' name
  (parts.dropLast.foldl (fun acc q => acc ++ q ++ ['.']) []) ++ ((splitAt '[' (parts.getLast?.getD [])).head?.getD [])

/-- constraint_correctness_analysis.rs:76: the map of the groups. -/
abbrev Groups := List (Name × Bool × List Name)

/-- constraint_correctness_analysis.rs:82-89: a signal joins its group; the kind of the group is that of its first signal. -/
def Groups.join : Groups → Name → Bool → Name → Groups
  | [], g, k, n => [(g, k, [n])]
  | x :: gs, g, k, n => if x.1 = g then (x.1, x.2.1, x.2.2 ++ [n]) :: gs else x :: Groups.join gs g k n

/-- constraint_correctness_analysis.rs:76-91. -/
def groupsOf (stats : List Stat) : Groups :=
  stats.foldl (fun gs s => if s.appearances = 0 then gs.join (stem s.name) s.isLocal s.name else gs) []

/-- constraint_correctness_analysis.rs:13-48: what the two kinds of reports say. -/
inductive Report where
  | single (isLocal : Bool) (template signal : Name)
  | several (isLocal : Bool) (template array : Name) (total : Nat) (first second : Name)
  deriving DecidableEq, Repr

/-- constraint_correctness_analysis.rs:14-29, 33-48 `UnconstrainedSignal::new`, `UnconstrainedIOSignal::new`; an index out of range aborts. -/
def report (template : Name) (g : Name × Bool × List Name) : Res Report :=
  match g.2.2 with
  | [e] => .ok (.single g.2.1 template e)
  | e :: e' :: r => .ok (.several g.2.1 template g.1 (r.length + 2) e e')
  | [] => .error .panic

/-- constraint_correctness_analysis.rs:72-98 `analysis_interpretation`. -/
def interpret (template : Name) (stats : List Stat) : Res (List Report) := (groupsOf stats).mapM (report template)

/-- constraint_correctness_analysis.rs:159-173 `analyse`: the nodes with their underscored signals, the names already visited. -/
def analyse : List (Node × List Nat) → List Name → Res (List Report)
  | [], _ => .ok []
  | (n, us) :: ns, visited =>
    if !n.isCustomGate && !visited.contains n.name then do
      let stats ← visitNode n us
      let rs ← interpret n.name stats
      let rest ← analyse ns (visited ++ [n.name])
      .ok (rs ++ rest)
    else analyse ns visited

/-- executed_template.rs:356-360 in `build_constraints`: the numbers of the underscored signals; an unknown name aborts. -/
def underscoredIds (n : Node) (us : List Name) : Res (List Nat) := us.mapM fun s => unwrap (NMap.get n.correspondence s)

/-- executed_program.rs:178-180, 202-206 with dag/src/lib.rs:468-475 `constraint_analysis`: the warnings of `--inspect`. -/
def inspect (ts : List Template) (us : Nat → List Name) : Res (List Report) := do
  let d ← buildDag ts
  let nodes ← d.nodes.zipIdx.mapM fun x => (do
    let ids ← underscoredIds x.1 (us x.2)
    .ok (x.1, ids) : Res (Node × List Nat))
  analyse nodes []

end Verif.Inspect
