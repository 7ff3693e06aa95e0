import Verif.ExecTame

set_option linter.unusedSectionVars false

/-!
Properties C43, C44, C45 and C62: the symbolic execution of template bodies
(`constraint_generation/src/execute.rs`, `assignment_utils.rs`).

Concrete runs: signal values `w` (`w 0 = 1` for the constant key), `run` decides every branch.
-/

namespace Verif.Props.Exec

open Verif.ModArith Verif.Algebra Verif.Exec

variable {p : Nat} {w : Nat → Int}

/-- Field values for the signals. -/
def Signals (p : Nat) (w : Nat → Int) : Prop := w 0 = 1 ∧ ∀ s, 0 ≤ w s ∧ w s < p

/-! ### Programs used in the examples -/

def seqs (l : List Stmt) : Stmt := l.foldr .seq .skip

/-- Signal values given by a list, the rest 0. -/
def vals (l : List Int) : Nat → Int := fun s => l.getD s 0

theorem vals_signals {l : List Int} (h0 : l.getD 0 0 = 1) (h : ∀ x ∈ l, 0 ≤ x ∧ x < 101) :
    Signals 101 (vals l) := by
  refine ⟨h0, fun s => ?_⟩
  unfold vals
  rw [List.getD_eq_getElem?_getD]
  cases hs : l[s]? with
  | none => simp
  | some x => simpa using h x (List.mem_of_getElem? hs)

/-- `var a = 0; var j = 0;` -/
def twoVars : Stmt := seqs [.decl 1, .assign 1 (.num 0), .decl 2, .assign 2 (.num 0)]

/-- `while (j < 2) { if (a == 1) { j = j + 1; } a = 1; }` -/
def delayed : Stmt := .while (.bin .lesser (.var 2) (.num 2)) (.block (seqs [
  .ifte (.bin .eq (.var 1) (.num 1)) (.assign 2 (.bin .add (.var 2) (.num 1))) none,
  .assign 1 (.num 1)]))

/-- `var x = 0; { var a = 0; var b = 0; var i = in; while (i < 5) { if (b == 1) { x = 5; }
if (a == 1) { b = 1; } a = 1; i = i + 1; } }` -/
def chain : Stmt := seqs [.decl 3, .assign 3 (.num 0), .block (seqs [
  .decl 1, .assign 1 (.num 0), .decl 2, .assign 2 (.num 0), .decl 4, .assign 4 (.sig 1),
  .while (.bin .lesser (.var 4) (.num 5)) (.block (seqs [
    .ifte (.bin .eq (.var 2) (.num 1)) (.assign 3 (.num 5)) none,
    .ifte (.bin .eq (.var 1) (.num 1)) (.assign 2 (.num 1)) none,
    .assign 1 (.num 1),
    .assign 4 (.bin .add (.var 4) (.num 1))]))])]

/-- `var x = 3; var i = in; while (i < 5) { i = i + 1; } x = x + 1; if (in == 1) { s <-- x; } else
{ s <-- 7; } out <== in * x;` -/
def sample : Stmt := seqs [.decl 1, .assign 1 (.num 3), .decl 2, .assign 2 (.sig 1),
  .while (.bin .lesser (.var 2) (.num 5)) (.block (.assign 2 (.bin .add (.var 2) (.num 1)))),
  .assign 1 (.bin .add (.var 1) (.num 1)),
  .ifte (.bin .eq (.sig 1) (.num 1)) (.sassign 2 (.var 1)) (some (.sassign 2 (.num 7))),
  .cassign 3 (.bin .mul (.sig 1) (.var 1))]

theorem sample_lits : sample.Lits 101 := by
  simp [sample, seqs, Stmt.Lits, Expr.Lits]

theorem sample_scoped : sample.Scoped true := by
  simp [sample, seqs, Stmt.Scoped]

theorem sample_tame : sample.Tame := by
  simp [sample, seqs, Stmt.Tame, Stmt.Flat]

/-- Executions succeed and check the given condition. -/
def okAnd (r : Ex (St × Option V)) (f : St → Option V → Bool) : Bool :=
  match r with
  | .ok (st, v) => f st v
  | _ => false

theorem okAnd_spec {r : Ex (St × Option V)} {f : St → Option V → Bool} (h : okAnd r f = true) :
    ∃ st v, r = .ok (st, v) ∧ f st v = true := by
  unfold okAnd at h
  split at h
  · exact ⟨_, _, rfl, h⟩
  · cases h

theorem start_rel {inputs : List Nat} : RelE p (rho p w) (start inputs).env [[]] := .cons .nil .nil

/-! ### C45 -/

/-- C45 (missing: loops with unknown condition for which a third pass would still change something,
see `C45_violated`): if the executor finishes and holds a value for a variable, then every concrete
execution that finishes does so without return value and ends with the variable having that value;
in particular a variable considered to be the number `n` is `n`. -/
theorem C45_known_values_partial (hp : 1 < p) (hw : Signals p w) {body : Stmt} {inputs : List Nat}
    (hs : body.Scoped true) (hl : body.Lits p) {fuel cfuel : Nat} {st : St}
    (h : exec fuel p body (start inputs) = .ok (st, none)) (hu : st.unstable = false)
    {c : CEnv} {tr : Trace} {rc : Option Int} (hc : run cfuel p w body [[]] = some (c, tr, rc)) :
    rc = none ∧ ∀ x a, envGet st.env x = some a →
      ∃ u : Int, envGet c x = some u ∧ (∀ n, a = .number n → u = n) ∧
        (a ≠ .nonQuadratic → a.value (rho p w) = some (u : ZMod p)) := by
  have ho := (exec_sim hp hw.2 hw.1 fuel cfuel body true hs hl _ _ _ _ _ _ _ h hc start_rel hu).2 rfl
  refine ⟨ho.ret, fun x a hx => ?_⟩
  rcases envGet_rel (R := RelV p (rho p w)) ho.env x with ⟨g1, _⟩ | ⟨a', u, g1, g2, g3⟩
  · rw [hx] at g1; cases g1
  · rw [hx] at g1
    injection g1 with g1
    subst g1
    exact ⟨u, g2, fun n hn => (g3.number n hn).symm, fun hne => g3.value.resolve_left hne⟩

/-- C45 for programs whose loop bodies contain no branches, loops or signals: two passes always
suffice. -/
theorem C45_known_values_flat_loops (hp : 1 < p) (hw : Signals p w) {body : Stmt} {inputs : List Nat}
    (hs : body.Scoped true) (hl : body.Lits p) (ht : body.Tame) {fuel cfuel : Nat} {st : St}
    (h : exec fuel p body (start inputs) = .ok (st, none))
    {c : CEnv} {tr : Trace} {rc : Option Int} (hc : run cfuel p w body [[]] = some (c, tr, rc)) :
    rc = none ∧ ∀ x n, envGet st.env x = some (.number n) → envGet c x = some n := by
  have hu : st.unstable = false := tame_stable fuel p body ht true hs _ _ _ h
  obtain ⟨h1, h2⟩ := C45_known_values_partial hp hw hs hl h hu hc
  refine ⟨h1, fun x n hx => ?_⟩
  obtain ⟨u, g1, g2, _⟩ := h2 x _ hx
  rw [g1, g2 n rfl]

/-- The returned value is right as well (bodies of functions). -/
theorem C45_return_partial (hp : 1 < p) (hw : Signals p w) {body : Stmt} {inputs : List Nat}
    (hs : body.Scoped true) (hl : body.Lits p) {fuel cfuel : Nat} {st : St} {n : Int}
    (h : exec fuel p body (start inputs) = .ok (st, some (.number n))) (hu : st.unstable = false)
    {c : CEnv} {tr : Trace} {rc : Option Int} (hc : run cfuel p w body [[]] = some (c, tr, rc)) :
    rc = some n := by
  obtain ⟨u, g1, g2⟩ := (exec_sim hp hw.2 hw.1 fuel cfuel body true hs hl _ _ _ _ _ _ _ h hc start_rel
    hu).1 _ rfl (by simp)
  rw [g1, g2.number n rfl]

/-- The sample is accepted with `x` known to be 4 although a loop ran an unknown number of times. -/
example : okAnd (exec 10 101 sample (start [1])) (fun st r => decide (r = none) && !st.unstable &&
    decide (envGet st.env 1 = some (.number 4))) = true := by decide +kernel

example : ∃ c tr rc, run 20 101 (vals [1, 2, 7, 8]) sample [[]] = some (c, tr, rc) ∧ rc = none ∧
    envGet c 1 = some 4 := by
  obtain ⟨st, r, h, hf⟩ := okAnd_spec (r := exec 10 101 sample (start [1]))
    (f := fun st r => decide (r = none) && decide (envGet st.env 1 = some (.number 4))) (by decide +kernel)
  simp only [Bool.and_eq_true, decide_eq_true_eq] at hf
  obtain ⟨rfl, hx⟩ := hf
  have hsome : (run 20 101 (vals [1, 2, 7, 8]) sample [[]]).isSome = true := by decide +kernel
  obtain ⟨⟨c, tr, rc⟩, hc⟩ := Option.isSome_iff_exists.1 hsome
  obtain ⟨h1, h2⟩ := C45_known_values_flat_loops (p := 101) (by decide)
    (vals_signals (by decide) (by decide)) sample_scoped sample_lits sample_tame h hc
  exact ⟨c, tr, rc, hc, h1, h2 1 4 hx⟩

/-- A function body: `var r = 2; var j = 0; while (j < 3) { r = r * 2; j = j + 1; } return r;` -/
example : okAnd (exec 10 101 (seqs [.decl 1, .assign 1 (.num 2), .decl 2, .assign 2 (.num 0),
    .while (.bin .lesser (.var 2) (.num 3)) (.block (seqs [.assign 1 (.bin .mul (.var 1) (.num 2)),
      .assign 2 (.bin .add (.var 2) (.num 1))])), .ret (.var 1)]) (start []))
    (fun st r => decide (r = some (.number 16)) && !st.unstable) = true := by decide +kernel

/-- C45 fails: the executor runs a loop with unknown condition only twice. In `chain` it concludes
that `x` is 0, but with `in = 0` the program ends with `x = 5`. -/
theorem C45_violated :
    chain.Scoped true ∧ chain.Lits 101 ∧ Signals 101 (vals [1, 0]) ∧
    (∃ st, exec 10 101 chain (start [1]) = .ok (st, none) ∧ envGet st.env 3 = some (.number 0)) ∧
    ∃ c tr, run 10 101 (vals [1, 0]) chain [[]] = some (c, tr, none) ∧ envGet c 3 = some 5 := by
  refine ⟨by simp [chain, seqs, Stmt.Scoped], by simp [chain, seqs, Stmt.Lits, Expr.Lits],
    vals_signals (by decide) (by decide), ?_, ?_⟩
  · obtain ⟨st, r, h, hf⟩ := okAnd_spec (r := exec 10 101 chain (start [1]))
      (f := fun st r => decide (r = none) && decide (envGet st.env 3 = some (.number 0))) (by decide +kernel)
    simp only [Bool.and_eq_true, decide_eq_true_eq] at hf
    obtain ⟨rfl, hx⟩ := hf
    exact ⟨st, h, hx⟩
  · exact ⟨[[(3, 5)]], ⟨[], []⟩, by decide +kernel, by decide⟩

/-! ### C62 -/

/-- C62 (missing: loops with unknown condition that are not stable after two passes): for all signal
values, the generated constraints hold exactly if every `===` and every `<==` met in the concrete
execution of the template compares equal values. -/
theorem C62_constraints_partial (hp : 1 < p) (hw : Signals p w) {body : Stmt} {inputs : List Nat}
    (hs : body.Scoped true) (hl : body.Lits p) {fuel cfuel : Nat} {st : St}
    (h : exec fuel p body (start inputs) = .ok (st, none)) (hu : st.unstable = false)
    {c : CEnv} {tr : Trace} {rc : Option Int} (hc : run cfuel p w body [[]] = some (c, tr, rc)) :
    (∀ k ∈ st.cons, k.Holds (rho p w)) ↔ ∀ q ∈ tr.checks, q.1 = q.2 := by
  have ho := (exec_sim hp hw.2 hw.1 fuel cfuel body true hs hl _ _ _ _ _ _ _ h hc start_rel hu).2 rfl
  obtain ⟨new, h1, h2⟩ := ho.cons
  have : st.cons = new := by rw [h1]; rfl
  rw [this]
  exact h2

theorem C62_constraints_flat_loops (hp : 1 < p) (hw : Signals p w) {body : Stmt} {inputs : List Nat}
    (hs : body.Scoped true) (hl : body.Lits p) (ht : body.Tame) {fuel cfuel : Nat} {st : St}
    (h : exec fuel p body (start inputs) = .ok (st, none))
    {c : CEnv} {tr : Trace} {rc : Option Int} (hc : run cfuel p w body [[]] = some (c, tr, rc)) :
    (∀ k ∈ st.cons, k.Holds (rho p w)) ↔ ∀ q ∈ tr.checks, q.1 = q.2 :=
  C62_constraints_partial hp hw hs hl h (tame_stable fuel p body ht true hs _ _ _ h) hc

/-- In the sample the run with `out = 8 = in * 4` passes its check, the one with `out = 9` does not. -/
example : (run 20 101 (vals [1, 2, 7, 8]) sample [[]]).map (fun x => x.2.1.checks) = some [(8, 8)] ∧
    (run 20 101 (vals [1, 2, 7, 9]) sample [[]]).map (fun x => x.2.1.checks) = some [(9, 8)] ∧
    okAnd (exec 10 101 sample (start [1])) (fun st r => decide (r = none) && decide (st.cons.length = 1)) =
      true := by decide +kernel

instance (ρ : Nat → ZMod 101) (k : Constraint Nat) : Decidable (k.Holds ρ) := by
  unfold Constraint.Holds
  infer_instance

/-- C62 fails through the same loops: after `chain`, `out <== x` generates the constraint `out = 0`,
while the template computes 5. -/
theorem C62_violated :
    let body := Stmt.seq chain (.cassign 2 (.var 3))
    body.Scoped true ∧ body.Lits 101 ∧ Signals 101 (vals [1, 0, 5]) ∧
    ∃ st c tr, exec 10 101 body (start [1]) = .ok (st, none) ∧
      run 10 101 (vals [1, 0, 5]) body [[]] = some (c, tr, none) ∧
      (∀ q ∈ tr.checks, q.1 = q.2) ∧ ∃ k ∈ st.cons, ¬ k.Holds (rho 101 (vals [1, 0, 5])) := by
  intro body
  have hs : body.Scoped true := by simp [body, chain, seqs, Stmt.Scoped]
  have hl : body.Lits 101 := by simp [body, chain, seqs, Stmt.Lits, Expr.Lits]
  refine ⟨hs, hl, vals_signals (by decide) (by decide), ?_⟩
  obtain ⟨st, r, h, hf⟩ := okAnd_spec (r := exec 10 101 body (start [1]))
    (f := fun st r => decide (r = none) && decide (∃ k ∈ st.cons, ¬ k.Holds (rho 101 (vals [1, 0, 5]))))
    (by decide +kernel)
  simp only [Bool.and_eq_true, decide_eq_true_eq] at hf
  obtain ⟨rfl, hx⟩ := hf
  exact ⟨st, [[(3, 5)]], ⟨[2], [(5, 5)]⟩, h, by decide +kernel, by decide, hx⟩

/-! ### C44 -/

/-- C44 (missing: loops): a statement without loops leaves the pending conditions as it found them. -/
theorem C44_balanced_partial {fuel : Nat} {field : Int} {s : Stmt} (hs : s.LoopFree) {st st' : St}
    {r : Option V} (h : exec fuel field s st = .ok (st', r)) : st'.conds = st.conds :=
  (loopFree_conds fuel field s hs st st' r h).1

example : okAnd (exec 10 101 (seqs [.decl 1, .assign 1 (.sig 1),
      .ifte (.bin .eq (.var 1) (.num 1)) (.block (.ifte (.sig 1) (.assign 1 (.num 0)) none))
        (some (.assign 1 (.num 2)))]) { start [1] with conds := [(7, true)], counter := 8 })
    (fun st _ => decide (st.conds = [(7, true)]) && decide (st.counter = 10)) = true := by decide +kernel

/-- C44, the exact effect of a loop whose body has no loops: one entry is added at the start and one
is removed per iteration with known condition. So a loop without such iterations leaves an entry
behind, and `n ≥ 2` iterations remove `n - 1` entries that belong to surrounding branches. -/
theorem C44_loop_effect {fuel : Nat} {field : Int} {c : Expr} {b : Stmt} (hb : b.LoopFree) {st st' : St}
    (h : exec fuel field (.while c b) st = .ok (st', none)) :
    ∃ n st1, Iterates (conditional field c (exec fuel field b) none) n (startLoop st) st1 ∧
      (∃ st2 cr, conditional field c (exec fuel field b) none st1 = .ok (st2, none, cr) ∧
        cr ≠ some true) ∧
      (n = 0 → st'.conds = st.conds ++ [(st.counter, true)]) ∧
      (0 < n → st'.conds = st.conds.take (st.conds.length - (n - 1))) := by
  simp only [exec] at h
  obtain ⟨n, st1, h1, h2, h3⟩ := whileLoop_conds (fun _ _ _ _ h =>
    (loopFree_conditional (loopFree_conds fuel field b hb) (by intro f hf; cases hf) h).1) _ _ _ h
  refine ⟨n, st1, h1, h2, ?_, ?_⟩
  · rintro rfl
    rw [h3]
    simp [dropEnd, startLoop]
  · intro hn
    rw [h3]
    simp only [dropEnd, startLoop, List.length_append, List.length_singleton]
    rw [List.take_append_of_le_length (by omega)]
    congr 1
    omega

/-- Three iterations of a loop over a known counter remove two entries. -/
example : okAnd (exec 10 101 (.while (.bin .lesser (.var 1) (.num 3))
      (.assign 1 (.bin .add (.var 1) (.num 1))))
      { start [] with env := [[(1, .number 0)]], conds := [(0, true), (1, false), (2, true)], counter := 3 })
    (fun st r => decide (r = none) && decide (st.conds = [(0, true)])) = true := by decide +kernel

/-- C44 fails: a loop that is not entered, and the usual counting loop inside a branch of an unknown
condition, leave an entry behind. -/
theorem C44_violated :
    (∃ st, exec 10 101 (.while (.num 0) .skip) (start []) = .ok (st, none) ∧
      st.conds ≠ (start []).conds) ∧
    ∃ st, exec 10 101 (.ifte (.sig 1) (.block (seqs [.decl 1, .assign 1 (.num 0),
        .while (.bin .lesser (.var 1) (.num 2)) (.assign 1 (.bin .add (.var 1) (.num 1)))])) none)
      (start [1]) = .ok (st, none) ∧ st.conds ≠ (start [1]).conds := by
  constructor
  · obtain ⟨st, r, h, hf⟩ := okAnd_spec (r := exec 10 101 (.while (.num 0) .skip) (start []))
      (f := fun st r => decide (r = none) && decide (st.conds ≠ (start []).conds)) (by decide +kernel)
    simp only [Bool.and_eq_true, decide_eq_true_eq] at hf
    obtain ⟨rfl, hx⟩ := hf
    exact ⟨st, h, hx⟩
  · obtain ⟨st, r, h, hf⟩ := okAnd_spec (r := exec 10 101 (.ifte (.sig 1) (.block (seqs [.decl 1,
        .assign 1 (.num 0),
        .while (.bin .lesser (.var 1) (.num 2)) (.assign 1 (.bin .add (.var 1) (.num 1)))])) none)
      (start [1]))
      (f := fun st r => decide (r = none) && decide (st.conds ≠ (start [1]).conds)) (by decide +kernel)
    simp only [Bool.and_eq_true, decide_eq_true_eq] at hf
    obtain ⟨rfl, hx⟩ := hf
    exact ⟨st, h, hx⟩

/-- Consequence: a loop with two known iterations in the first branch of an unknown `if`/`else` makes
the compiler abort, although the program has a meaning. -/
theorem C44_abort :
    (match exec 10 101 (.seq twoVars (.ifte (.sig 1) delayed (some .skip))) (start [1]) with
      | .error .panic => true
      | _ => false) = true ∧
    (run 10 101 (vals [1, 1]) (.seq twoVars (.ifte (.sig 1) delayed (some .skip))) [[]]).isSome = true := by
  decide +kernel

/-- Consequence: a signal assigned once in each branch is reported as assigned twice because the
first branch also contains a counting loop. -/
theorem C44_false_error :
    let body := Stmt.ifte (.sig 1) (.seq (.sassign 3 (.num 1)) (.block (seqs [.decl 1,
      .assign 1 (.num 0),
      .while (.bin .lesser (.var 1) (.num 2)) (.assign 1 (.bin .add (.var 1) (.num 1)))])))
      (some (.sassign 3 (.num 2)))
    (match exec 10 101 body (start [1]) with
      | .error .multipleAssignments => true
      | _ => false) = true ∧
    (run 10 101 (vals [1, 1]) body [[]]).map (fun x => x.2.1.sigs) = some [3] ∧
    (run 10 101 (vals [1, 0]) body [[]]).map (fun x => x.2.1.sigs) = some [3] := by
  decide +kernel

/-! ### C43 -/

/-- C43 (missing: loops inside branches of unknown conditions, see `C43_violated`, and loops that are
not stable after two passes): if the body is accepted, no concrete execution assigns a signal twice or
assigns an input, a signal recorded as assigned is an input or gets assigned by every execution, and
one recorded as not assigned by none. -/
theorem C43_assigned_once_partial (hp : 1 < p) (hw : Signals p w) {body : Stmt} {inputs : List Nat}
    (hs : body.Scoped true) (hl : body.Lits p) {fuel cfuel : Nat} {st : St}
    (h : exec fuel p body (start inputs) = .ok (st, none)) (hu : st.unstable = false)
    (hloop : st.loopInUnknown = false)
    {c : CEnv} {tr : Trace} {rc : Option Int} (hc : run cfuel p w body [[]] = some (c, tr, rc)) :
    tr.sigs.Nodup ∧ (∀ s ∈ inputs, s ∉ tr.sigs) ∧
    (∀ s, st.sigs s = .assigned → s ∈ inputs ∨ s ∈ tr.sigs) ∧
    (∀ s, st.sigs s = .noAssigned → s ∉ tr.sigs) := by
  have ho := (exec_sim hp hw.2 hw.1 fuel cfuel body true hs hl _ _ _ _ _ _ _ h hc start_rel hu).2 rfl
  have hinv := exec_inv h (start_inv inputs)
  obtain ⟨β, _, _, new, h3, h4⟩ := ho.log hloop (by intro x hx; simp [start] at hx) (fun _ => true)
    (by simp [act, start])
  have hnew : st.log = new := by rw [h3]; rfl
  subst hnew
  have htr : tr.sigs = onPath β st.log := h4
  rw [htr]
  refine ⟨onPath_nodup hinv.pairwise, ?_, ?_, ?_⟩
  · intro s hsi hmem
    obtain ⟨e, he, _⟩ := mem_onPath.1 hmem
    have := hinv.2 s
    cases ha : st.sigs s with
    | noAssigned => rw [ha] at this; exact this.2 hsi
    | mightAssigned r => rw [ha] at this; exact this.2.1 hsi
    | assigned =>
      rw [ha] at this
      rcases this.2 with ⟨_, h0⟩ | ⟨h0, _⟩
      · rw [h0] at he; cases he
      · exact h0 hsi
  · intro s ha
    have := hinv.2 s
    rw [ha] at this
    rcases this.2 with ⟨h0, _⟩ | ⟨_, h0⟩
    · exact .inl h0
    · exact .inr (mem_onPath.2 (h0 β))
  · intro s ha hmem
    obtain ⟨e, he, _⟩ := mem_onPath.1 hmem
    have := hinv.2 s
    rw [ha] at this
    rw [this.1] at he
    cases he

/-- C43 for bodies without loops, where nothing else is assumed. -/
theorem C43_assigned_once_loop_free (hp : 1 < p) (hw : Signals p w) {body : Stmt} {inputs : List Nat}
    (hs : body.Scoped true) (hl : body.Lits p) (hf : body.LoopFree) {fuel cfuel : Nat} {st : St}
    (h : exec fuel p body (start inputs) = .ok (st, none))
    {c : CEnv} {tr : Trace} {rc : Option Int} (hc : run cfuel p w body [[]] = some (c, tr, rc)) :
    tr.sigs.Nodup ∧ (∀ s ∈ inputs, s ∉ tr.sigs) ∧
    (∀ s, st.sigs s = .assigned → s ∈ inputs ∨ s ∈ tr.sigs) ∧
    (∀ s, st.sigs s = .noAssigned → s ∉ tr.sigs) :=
  C43_assigned_once_partial hp hw hs hl h (tame_stable fuel p body hf.tame true hs _ _ _ h)
    (loopFree_conds fuel p body hf _ _ _ h).2 hc

/-- `if (in) { if (in == 2) { s <-- 1; } else { s <-- 2; } } else { s <-- 3; }` -/
def nested : Stmt := .ifte (.sig 1) (.ifte (.bin .eq (.sig 1) (.num 2)) (.sassign 2 (.num 1))
  (some (.sassign 2 (.num 2)))) (some (.sassign 2 (.num 3)))

/-- The executor finds that the nested branches assign the signal on every path. -/
example : okAnd (exec 10 101 nested (start [1])) (fun st r => decide (r = none) &&
    decide (st.sigs 2 = .assigned)) = true := by decide +kernel

example : ∃ c tr rc, run 20 101 (vals [1, 2]) nested [[]] = some (c, tr, rc) ∧ 2 ∈ tr.sigs ∧
    tr.sigs.Nodup := by
  obtain ⟨st, r, h, hf⟩ := okAnd_spec (r := exec 10 101 nested (start [1]))
    (f := fun st r => decide (r = none) && decide (st.sigs 2 = .assigned)) (by decide +kernel)
  simp only [Bool.and_eq_true, decide_eq_true_eq] at hf
  obtain ⟨rfl, hx⟩ := hf
  have hsome : (run 20 101 (vals [1, 2]) nested [[]]).isSome = true := by decide +kernel
  obtain ⟨⟨c, tr, rc⟩, hc⟩ := Option.isSome_iff_exists.1 hsome
  obtain ⟨h1, _, h3, _⟩ := C43_assigned_once_loop_free (p := 101) (by decide)
    (vals_signals (by decide) (by decide)) (by simp [nested, Stmt.Scoped])
    (by simp [nested, Stmt.Lits, Expr.Lits]) (by simp [nested, Stmt.LoopFree]) h hc
  refine ⟨c, tr, rc, hc, ?_, h1⟩
  rcases h3 2 hx with h | h
  · simp at h
  · exact h

/-- Hypotheses of `C43_assigned_once_partial` are met by the sample, which has a loop. -/
example : okAnd (exec 10 101 sample (start [1])) (fun st r => decide (r = none) && !st.unstable &&
    !st.loopInUnknown) = true := by decide +kernel

/-- C43 fails: `if (in) { s <-- 1; if (in2) { <loop> } else { s <-- 2; } }`, where the loop has two
iterations with known condition, is accepted and `s` recorded as assigned on every path; but one
execution assigns it twice and another one never. The variables are stable. -/
theorem C43_violated :
    let body := Stmt.seq twoVars (.ifte (.sig 1) (.seq (.sassign 3 (.num 1))
      (.ifte (.sig 2) delayed (some (.sassign 3 (.num 2))))) none)
    body.Scoped true ∧ body.Lits 101 ∧
    (∃ st, exec 10 101 body (start [1, 2]) = .ok (st, none) ∧ st.sigs 3 = .assigned ∧
      st.unstable = false) ∧
    (run 10 101 (vals [1, 1, 0]) body [[]]).map (fun x => x.2.1.sigs) = some [3, 3] ∧
    (run 10 101 (vals [1, 0, 0]) body [[]]).map (fun x => x.2.1.sigs) = some [] := by
  intro body
  refine ⟨by simp [body, twoVars, delayed, seqs, Stmt.Scoped],
    by simp [body, twoVars, delayed, seqs, Stmt.Lits, Expr.Lits], ?_, by decide +kernel, by decide +kernel⟩
  obtain ⟨st, r, h, hf⟩ := okAnd_spec (r := exec 10 101 body (start [1, 2]))
    (f := fun st r => decide (r = none) && decide (st.sigs 3 = .assigned) && !st.unstable)
    (by decide +kernel)
  simp only [Bool.and_eq_true, decide_eq_true_eq, Bool.not_eq_true'] at hf
  obtain ⟨⟨rfl, hx⟩, hu⟩ := hf
  exact ⟨st, h, hx, hu⟩

end Verif.Props.Exec
