import Verif.FiltersTame
import Verif.FiltersLoud
import Verif.Props.Exec
import Verif.Props.Analysis

set_option linter.unusedSectionVars false
set_option linter.unusedSimpArgs false
set_option linter.unusedVariables false

/-!
Property C72: constant folding and removal of dead code
(`constraint_generation/src/execution_data/filters.rs`, `analysis.rs`, `executed_program.rs:103-113`)
do not change what a template computes.
-/

namespace Verif.Props.Filters

open Verif.ModArith Verif.Algebra Verif.Exec Verif.Analysis Verif.Filters
open Verif.Props.Exec (Signals vals vals_signals start_rel)
open Verif.Props.Analysis (C46_folded_iff C46_total C46_reached_iff record_spec)

variable {p : Nat} {w : Nat → Int}

/-! ### The analysis is right for the visits it records -/

theorem reachAll_computed : ∀ {l : List Nat} {a a' : Analysis}, reachAll a l = .ok a' →
    a'.computed = a.computed
  | [], a, a', h => by
    simp only [reachAll, Except.ok.injEq] at h
    rw [h]
  | i :: l, a, a', h => by
    simp only [reachAll] at h
    split at h
    · cases h
    · rename_i a1 h1
      rw [reachAll_computed h]
      unfold setReached at h1
      split at h1
      · injection h1 with h1; rw [← h1]
      · cases h1

theorem record_reached {a a' : Analysis} {i : Nat} {v : V} (h : record a i v = .ok a') :
    a'.reached = a.reached := by
  unfold record at h
  split at h
  · cases h
  · split at h <;> (injection h with h; rw [← h])

theorem recordAll_reached : ∀ {l : List (Nat × V)} {a a' : Analysis}, recordAll a l = .ok a' →
    a'.reached = a.reached
  | [], a, a', h => by
    simp only [recordAll, Except.ok.injEq] at h
    rw [h]
  | (i, v) :: l, a, a', h => by
    simp only [recordAll] at h
    split at h
    · cases h
    · rename_i a1 h1
      rw [recordAll_reached h, record_reached h1]

/-- Only the values matter for the values recorded. -/
theorem record_same {a b a' : Analysis} (hab : a.computed = b.computed) {i : Nat} {v : V}
    (h : record a i v = .ok a') : ∃ b', record b i v = .ok b' ∧ a'.computed = b'.computed := by
  unfold record at h ⊢
  rw [← hab]
  split at h
  · cases h
  · rename_i old hold
    cases v <;> (simp only [Except.ok.injEq] at h ⊢; subst h; exact ⟨_, rfl, rfl⟩)

theorem recordAll_same : ∀ {l : List (Nat × V)} {a b a' : Analysis}, a.computed = b.computed →
    recordAll a l = .ok a' → ∃ b', recordAll b l = .ok b' ∧ a'.computed = b'.computed
  | [], a, b, a', hab, h => by
    simp only [recordAll, Except.ok.injEq] at h ⊢
    subst h
    exact ⟨b, rfl, hab⟩
  | (i, v) :: l, a, b, a', hab, h => by
    simp only [recordAll] at h ⊢
    split at h
    · cases h
    · rename_i a1 h1
      obtain ⟨b1, g1, g2⟩ := record_same hab h1
      rw [g1]
      exact recordAll_same g2 h

theorem reachAll_bound : ∀ {l : List Nat} {a a' : Analysis}, reachAll a l = .ok a' →
    a'.reached.length = a.reached.length ∧ ∀ i ∈ l, i < a.reached.length
  | [], a, a', h => by
    simp only [reachAll, Except.ok.injEq] at h
    subst h
    simp
  | i :: l, a, a', h => by
    simp only [reachAll] at h
    split at h
    · cases h
    · rename_i a1 h1
      unfold setReached at h1
      split at h1
      · rename_i hi
        injection h1 with h1
        subst h1
        obtain ⟨g1, g2⟩ := reachAll_bound h
        simp only [List.length_set] at g1 g2
        exact ⟨g1, by simpa [hi] using g2⟩
      · cases h1

/-- C46 for the analysis of an execution: whatever it replaces by a number had this number as value
at every visit, and all statements visited count as reached. -/
theorem C72_records {idMax : Nat} {l : Visits} {A : Analysis} (h : analyse idMax l = .ok A) :
    Covers A l := by
  unfold analyse at h
  split at h
  · cases h
  · rename_i a ha
    constructor
    · intro i hi
      have hlt : i < idMax := by simpa [Verif.Analysis.new] using (reachAll_bound ha).2 i hi
      have := C46_reached_iff ha hlt
      unfold isReached at this ⊢
      rw [recordAll_reached h, this]
      simp [hi]
    · intro i v hv n hn
      have hc := reachAll_computed ha
      obtain ⟨b, g1, g2⟩ := recordAll_same hc h
      have hlt : i < idMax := (C46_total.1 ⟨b, g1⟩) _ hv
      have hn' : readComputed b i = .ok (some n) := by
        unfold readComputed at hn ⊢
        rw [← g2]; exact hn
      exact ((C46_folded_iff g1 hlt n).1 hn').2 v hv

/-! ### Programs used in the examples -/

/-- A list of statements. -/
def list (l : List LStmt) : LStmt := l.foldr .cons .nil

/-- Filter the code of a template after executing it symbolically. -/
def compileT (fuel : Nat) (field : Int) (inputs : List Nat) (idMax : Nat) (s : LStmt) :
    Option (St × Visits × Visits × Analysis × LStmt) :=
  match execV fuel field s (start inputs) with
  | .error _ => none
  | .ok (st, l, sp) =>
    match analyse idMax l with
    | .error _ => none
    | .ok A =>
      match filterCode A field s with
      | .error _ => none
      | .ok s' => some (st, l, sp, A, s')

theorem compileT_spec {fuel : Nat} {field : Int} {inputs : List Nat} {idMax : Nat} {s s' : LStmt}
    {st : St} {l sp : Visits} {A : Analysis}
    (h : compileT fuel field inputs idMax s = some (st, l, sp, A, s')) :
    execV fuel field s (start inputs) = .ok (st, l, sp) ∧ analyse idMax l = .ok A ∧
      filterCode A field s = .ok s' := by
  unfold compileT at h
  split at h
  · cases h
  · rename_i st1 l1 sp1 h1
    split at h
    · cases h
    · rename_i A1 h2
      split at h
      · cases h
      · rename_i s1 h3
        simp only [Option.some.injEq, Prod.mk.injEq] at h
        obtain ⟨rfl, rfl, rfl, rfl, rfl⟩ := h
        exact ⟨h1, h2, h3⟩

/-- The filtered code. -/
def filtered (fuel : Nat) (field : Int) (inputs : List Nat) (idMax : Nat) (s : LStmt) : Option LStmt :=
  (compileT fuel field inputs idMax s).map fun x => x.2.2.2.2

theorem filtered_spec {fuel : Nat} {field : Int} {inputs : List Nat} {idMax : Nat} {s s' : LStmt}
    (h : filtered fuel field inputs idMax s = some s') : ∃ st l sp A,
      execV fuel field s (start inputs) = .ok (st, l, sp) ∧ analyse idMax l = .ok A ∧
      filterCode A field s = .ok s' := by
  unfold filtered at h
  rw [Option.map_eq_some_iff] at h
  obtain ⟨⟨st, l, sp, A, s1⟩, h1, rfl⟩ := h
  exact ⟨st, l, sp, A, compileT_spec h1⟩

/-- `{ var n = 3; var k = 2 * n; if (n == 3) { var i = 0; while (i < in) { i = i + n; } } else
{ k = in; } o <-- k + in; o === 6 + in; }` -/
def sample : LStmt := .block 0 (list [
  .decl 1 1, .assign 2 1 (.num 3 3), .decl 4 2, .assign 5 2 (.bin 6 .mul (.num 7 2) (.var 8 1)),
  .ifElse 9 (.bin 10 .eq (.var 11 1) (.num 12 3))
    (.block 13 (list [.decl 14 3, .assign 15 3 (.num 16 0),
      .while 17 (.bin 18 .lesser (.var 19 3) (.sig 20 1))
        (.block 21 (list [.assign 22 3 (.bin 23 .add (.var 24 3) (.var 25 1))]))]))
    (.block 26 (list [.assign 27 2 (.sig 28 1)])),
  .sassign 29 2 (.bin 30 .add (.var 31 2) (.sig 32 1)),
  .check 33 (.sig 34 2) (.bin 35 .add (.num 36 6) (.sig 37 1))])

/-- What is left of it. -/
def sampleFiltered : LStmt := .block 0 (list [
  .decl 1 1, .assign 2 1 (.num 3 3), .decl 4 2, .assign 5 2 (.num 6 6),
  .block 13 (list [.decl 14 3, .assign 15 3 (.num 16 0),
    .while 17 (.bin 18 .lesser (.var 19 3) (.sig 20 1))
      (.block 21 (list [.assign 22 3 (.bin 23 .add (.var 24 3) (.num 25 3))]))]),
  .sassign 29 2 (.bin 30 .add (.num 31 6) (.sig 32 1)),
  .check 33 (.sig 34 2) (.bin 35 .add (.num 36 6) (.sig 37 1))])

theorem sample_filtered : filtered 10 101 [1] 40 sample = some sampleFiltered := by decide +kernel

theorem sample_ok : sample.Proper ∧ sample.NoIte ∧ sample.erase.Tame ∧ sample.erase.Scoped true ∧
    sample.erase.Lits 101 := by
  refine ⟨?_, ?_, ?_, ?_, ?_⟩
  · simp [sample, list, LStmt.Proper]
  · simp [sample, list, LStmt.NoIte, LExpr.NoIte]
  · simp [sample, list, LStmt.erase, Stmt.Tame, Stmt.Flat]
  · simp [sample, list, LStmt.erase, Stmt.Scoped]
  · simp [sample, list, LStmt.erase, LExpr.erase, Stmt.Lits, Expr.Lits]

/-! ### C72 -/

/-- C72 (missing: what happens in later iterations of loops with unknown condition and in branches of
inline conditionals that are chosen by unknown conditions, if the visits `sp` left out there do not
agree with the records, see `C72_loop_violated` and `C72_ternary_violated`; runs that do not finish,
see `C72_endless_violated`): if the code of a template is filtered by the records of its symbolic
execution, then every finishing run of the template, whatever the values of its signals, is also a run
of the filtered code: the same values are assigned to and compared with the same signals in the same
order, and the variables at the end are the same. -/
theorem C72_partial (hp : 1 < p) (hw : Signals p w) {s s' : LStmt} {inputs : List Nat}
    (hprop : s.Proper) (hs : s.erase.Scoped true) (hl : s.erase.Lits p) {fuel cfuel idMax : Nat} {st : St}
    {l sp : Visits} {A : Analysis} (h : execV fuel p s (start inputs) = .ok (st, l, sp))
    (hu : st.unstable = false) (hA : analyse idMax l = .ok A) (hsp : Covers A sp)
    (hf : filterCode A p s = .ok s') {r : CEnv × Trace × Option Int}
    (hr : runAll cfuel p w s [[]] = some r) : runAll cfuel p w s' [[]] = some r :=
  filterCode_all hprop hf
    (execV_agree hp hw.2 hw.1 fuel cfuel s true hs hl _ _ _ _ _ h start_rel hu (C72_records hA) hsp) hr

/-- C72 if nothing was left out: every inline conditional met had a known condition, and so had all
loops. -/
theorem C72_known (hp : 1 < p) (hw : Signals p w) {s s' : LStmt} {inputs : List Nat}
    (hprop : s.Proper) (hs : s.erase.Scoped true) (hl : s.erase.Lits p) {fuel cfuel idMax : Nat} {st : St}
    {l : Visits} {A : Analysis} (h : execV fuel p s (start inputs) = .ok (st, l, .none))
    (hu : st.unstable = false) (hA : analyse idMax l = .ok A)
    (hf : filterCode A p s = .ok s') {r : CEnv × Trace × Option Int}
    (hr : runAll cfuel p w s [[]] = some r) : runAll cfuel p w s' [[]] = some r :=
  C72_partial hp hw hprop hs hl h hu hA covers_none hf hr

/-- C72 for templates without inline conditionals whose loop bodies contain no branches, loops or
signals. -/
theorem C72_flat_loops (hp : 1 < p) (hw : Signals p w) {s s' : LStmt} {inputs : List Nat}
    (hprop : s.Proper) (hs : s.erase.Scoped true) (hl : s.erase.Lits p) (ht : s.erase.Tame) (hn : s.NoIte)
    {fuel cfuel idMax : Nat} {st : St} {l sp : Visits} {A : Analysis}
    (h : execV fuel p s (start inputs) = .ok (st, l, sp)) (hA : analyse idMax l = .ok A)
    (hf : filterCode A p s = .ok s') {r : CEnv × Trace × Option Int}
    (hr : runAll cfuel p w s [[]] = some r) : runAll cfuel p w s' [[]] = some r :=
  C72_partial hp hw hprop hs hl h (tame_stable fuel p s.erase ht true hs _ _ _ (execV_exec h)) hA
    (tame_covers fuel p s true hn ht hs _ _ _ _ h (C72_records hA)) hf hr

/-- The sample with `in = 5`: one branch is left, `2 * n` has become `6`. -/
example : runAll 20 101 (vals [1, 5, 11]) sampleFiltered [[]] =
    some ([[]], ⟨[2], [(11, 11), (11, 11)]⟩, none) := by
  obtain ⟨st, l, sp, A, h1, h2, h3⟩ := filtered_spec sample_filtered
  obtain ⟨g1, g2, g3, g4, g5⟩ := sample_ok
  exact C72_flat_loops (p := 101) (by decide) (vals_signals (by decide) (by decide)) g1 g4 g5 g3 g2 h1 h2 h3
    (by decide +kernel)

/-- A loop with known condition and branches: `{ var i = 0; var y = 0; while (i < 3) { if (i == 1)
{ y = i ? in : 0; } i = i + 1; } o <-- y; }`: nothing is left out. -/
def sample2 : LStmt := .block 0 (list [
  .decl 1 1, .assign 2 1 (.num 3 0), .decl 4 2, .assign 5 2 (.num 6 0),
  .while 7 (.bin 8 .lesser (.var 9 1) (.num 10 3))
    (.block 11 (list [
      .ifThen 12 (.bin 13 .eq (.var 14 1) (.num 15 1))
        (.block 16 (list [.assign 17 2 (.ite 18 (.var 19 1) (.sig 20 1) (.num 21 0))])),
      .assign 22 1 (.bin 23 .add (.var 24 1) (.num 25 1))])),
  .sassign 26 2 (.var 27 2)])

example : (match compileT 10 101 [1] 30 sample2 with
    | some (st, _, sp, _, s') => !st.unstable && decide (sp = .none) &&
        decide (runAll 20 101 (vals [1, 5, 5]) s' [[]] = some ([[]], ⟨[2], [(5, 5)]⟩, none)) &&
        decide (s' ≠ sample2)
    | none => false) = true := by decide +kernel

/-! ### Totality -/

/-- All identifiers of the expression are below the bound. -/
def LExpr.Below (m : Nat) : LExpr → Prop
  | .num i _ | .var i _ | .sig i _ => i < m
  | .bin i _ l r => i < m ∧ LExpr.Below m l ∧ LExpr.Below m r
  | .un i _ e => i < m ∧ LExpr.Below m e
  | .ite i c a b => i < m ∧ LExpr.Below m c ∧ LExpr.Below m a ∧ LExpr.Below m b

/-- All identifiers of the statement are below the bound. -/
def LStmt.Below (m : Nat) : LStmt → Prop
  | .nil => True
  | .cons a b => LStmt.Below m a ∧ LStmt.Below m b
  | .decl i _ => i < m
  | .assign i _ e | .sassign i _ e | .cassign i _ e => i < m ∧ LExpr.Below m e
  | .check i l r => i < m ∧ LExpr.Below m l ∧ LExpr.Below m r
  | .ifThen i c t => i < m ∧ LExpr.Below m c ∧ LStmt.Below m t
  | .ifElse i c t e => i < m ∧ LExpr.Below m c ∧ LStmt.Below m t ∧ LStmt.Below m e
  | .while i c b => i < m ∧ LExpr.Below m c ∧ LStmt.Below m b
  | .block i b | .init i b => i < m ∧ LStmt.Below m b

/-- All identifiers visited are below the bound. -/
def Inside (m : Nat) (l : Visits) : Prop := (∀ i ∈ l.reached, i < m) ∧ ∀ x ∈ l.values, x.1 < m

theorem Inside.append {m : Nat} {a b : Visits} (ha : Inside m a) (hb : Inside m b) : Inside m (a ++ b) :=
  ⟨fun i hi => (List.mem_append.1 hi).elim (ha.1 i) (hb.1 i),
   fun x hx => (List.mem_append.1 hx).elim (ha.2 x) (hb.2 x)⟩

theorem inside_none {m : Nat} : Inside m .none := ⟨by simp [Visits.none], by simp [Visits.none]⟩

theorem inside_at {m i : Nat} (h : i < m) : Inside m (at_ i) := ⟨by simp [at_, h], by simp [at_]⟩

theorem visits_below {m : Nat} {field : Int} {sigs : Nat → AState} {env : List (List (Nat × V))} :
    ∀ {e : LExpr}, LExpr.Below m e → ∀ x ∈ visits field sigs env e, x.1 < m
  | .num _ _, h => by simpa [visits, LExpr.Below] using h
  | .var _ _, h => by simpa [visits, LExpr.Below] using h
  | .sig _ _, h => by simpa [visits, LExpr.Below] using h
  | .bin _ _ l r, h => by
    intro x hx
    simp only [visits, List.mem_append, List.mem_singleton] at hx
    rcases hx with (hx | hx) | rfl
    · exact visits_below h.2.1 x hx
    · exact visits_below h.2.2 x hx
    · exact h.1
  | .un _ _ e, h => by
    intro x hx
    simp only [visits, List.mem_append, List.mem_singleton] at hx
    rcases hx with hx | rfl
    · exact visits_below h.2 x hx
    · exact h.1
  | .ite _ c a b, h => by
    intro x hx
    simp only [visits, List.mem_append, List.mem_singleton] at hx
    rcases hx with (hx | hx) | rfl
    · exact visits_below h.2.1 x hx
    · split at hx
      · exact visits_below h.2.2.1 x hx
      · exact visits_below h.2.2.2 x hx
      · simp at hx
    · exact h.1

theorem seen_below {m : Nat} {field : Int} {st : St} {e : LExpr} (h : LExpr.Below m e) :
    Inside m (seen field st e) := ⟨by simp [seen], visits_below h⟩

theorem conditionalV_below {m : Nat} {field : Int} {c : LExpr} (hc : LExpr.Below m c) {t : St → ExV}
    {e : Option (St → ExV)}
    (ht : ∀ st st' l s, t st = .ok (st', l, s) → Inside m l)
    (he : ∀ f, e = some f → ∀ st st' l s, f st = .ok (st', l, s) → Inside m l)
    {st st' : St} {l s : Visits} {cr : Option Bool}
    (h : conditionalV field c t e st = .ok (st', l, s, cr)) : Inside m l := by
  unfold conditionalV at h
  split at h
  · cases h
  · split at h
    · split at h
      · cases h
      · rename_i hx
        simp only [Except.ok.injEq, Prod.mk.injEq] at h
        obtain ⟨rfl, rfl, rfl, rfl⟩ := h
        exact (seen_below hc).append (ht _ _ _ _ hx)
    · split at h
      · simp only [Except.ok.injEq, Prod.mk.injEq] at h
        obtain ⟨rfl, rfl, rfl, rfl⟩ := h
        exact seen_below hc
      · rename_i f
        split at h
        · cases h
        · rename_i hx
          simp only [Except.ok.injEq, Prod.mk.injEq] at h
          obtain ⟨rfl, rfl, rfl, rfl⟩ := h
          exact (seen_below hc).append (he f rfl _ _ _ _ hx)
    · split at h
      · cases h
      · rename_i st1 l1 s1 hx
        split at h
        · simp only [Except.ok.injEq, Prod.mk.injEq] at h
          obtain ⟨rfl, rfl, rfl, rfl⟩ := h
          exact (seen_below hc).append (ht _ _ _ _ hx)
        · rename_i f
          split at h
          · cases h
          · split at h
            · cases h
            · rename_i hy
              simp only [Except.ok.injEq, Prod.mk.injEq] at h
              obtain ⟨rfl, rfl, rfl, rfl⟩ := h
              exact ((seen_below hc).append (ht _ _ _ _ hx)).append (he f rfl _ _ _ _ hy)

theorem whileLoopV_below {m : Nat} {step : St → Ex (St × Visits × Visits × Option Bool)}
    (hstep : ∀ st st' l s cr, step st = .ok (st', l, s, cr) → Inside m l) :
    ∀ (n : Nat) (st st' : St) (l s : Visits), whileLoopV step n st = .ok (st', l, s) → Inside m l
  | 0, _, _, _, _, h => by simp [whileLoopV] at h
  | n + 1, st, st', l, s, h => by
    rw [whileLoopV] at h
    split at h
    · cases h
    · rename_i st1 l1 s1 hx
      split at h
      · cases h
      · rename_i st2 l2 s2 cr hy
        simp only [Except.ok.injEq, Prod.mk.injEq] at h
        obtain ⟨rfl, rfl, rfl⟩ := h
        exact (hstep _ _ _ _ _ hx).append (hstep _ _ _ _ _ hy)
    · rename_i st1 l1 s1 hx
      simp only [Except.ok.injEq, Prod.mk.injEq] at h
      obtain ⟨rfl, rfl, rfl⟩ := h
      exact hstep _ _ _ _ _ hx
    · rename_i st1 l1 s1 hx
      split at h
      · cases h
      · rename_i st2 l2 s2 hy
        simp only [Except.ok.injEq, Prod.mk.injEq] at h
        obtain ⟨rfl, rfl, rfl⟩ := h
        exact (hstep _ _ _ _ _ hx).append (whileLoopV_below hstep n _ _ _ _ hy)

theorem execV_below {m : Nat} {fuel : Nat} {field : Int} : ∀ (s : LStmt), LStmt.Below m s →
    ∀ (st st' : St) (l sp : Visits), execV fuel field s st = .ok (st', l, sp) → Inside m l
  | .nil, _, st, st', l, sp, h => by
    simp only [execV, Except.ok.injEq, Prod.mk.injEq] at h
    obtain ⟨rfl, rfl, rfl⟩ := h
    exact inside_none
  | .cons a b, hb, st, st', l, sp, h => by
    simp only [execV] at h
    split at h
    · cases h
    · rename_i hx
      split at h
      · cases h
      · rename_i hy
        simp only [Except.ok.injEq, Prod.mk.injEq] at h
        obtain ⟨rfl, rfl, rfl⟩ := h
        exact (execV_below a hb.1 _ _ _ _ hx).append (execV_below b hb.2 _ _ _ _ hy)
  | .decl i x, hb, st, st', l, sp, h => by
    simp only [execV] at h
    split at h
    · cases h
    · simp only [Except.ok.injEq, Prod.mk.injEq] at h
      obtain ⟨rfl, rfl, rfl⟩ := h
      exact inside_at hb
  | .assign i x e, hb, st, st', l, sp, h => by
    simp only [execV] at h
    split at h
    · cases h
    · simp only [Except.ok.injEq, Prod.mk.injEq] at h
      obtain ⟨rfl, rfl, rfl⟩ := h
      exact (inside_at hb.1).append (seen_below hb.2)
  | .sassign i x e, hb, st, st', l, sp, h => by
    simp only [execV] at h
    split at h
    · cases h
    · simp only [Except.ok.injEq, Prod.mk.injEq] at h
      obtain ⟨rfl, rfl, rfl⟩ := h
      exact (inside_at hb.1).append (seen_below hb.2)
  | .cassign i x e, hb, st, st', l, sp, h => by
    simp only [execV] at h
    split at h
    · cases h
    · simp only [Except.ok.injEq, Prod.mk.injEq] at h
      obtain ⟨rfl, rfl, rfl⟩ := h
      exact (inside_at hb.1).append (seen_below hb.2)
  | .check i a b, hb, st, st', l, sp, h => by
    simp only [execV] at h
    split at h
    · cases h
    · simp only [Except.ok.injEq, Prod.mk.injEq] at h
      obtain ⟨rfl, rfl, rfl⟩ := h
      exact ((inside_at hb.1).append (seen_below hb.2.1)).append (seen_below hb.2.2)
  | .ifThen i c t, hb, st, st', l, sp, h => by
    simp only [execV] at h
    split at h
    · cases h
    · rename_i hx
      simp only [Except.ok.injEq, Prod.mk.injEq] at h
      obtain ⟨rfl, rfl, rfl⟩ := h
      exact (inside_at hb.1).append (conditionalV_below hb.2.1 (execV_below t hb.2.2)
        (by intro f hf; cases hf) hx)
  | .ifElse i c t e, hb, st, st', l, sp, h => by
    simp only [execV] at h
    split at h
    · cases h
    · rename_i hx
      simp only [Except.ok.injEq, Prod.mk.injEq] at h
      obtain ⟨rfl, rfl, rfl⟩ := h
      exact (inside_at hb.1).append (conditionalV_below hb.2.1 (execV_below t hb.2.2.1)
        (by intro f hf; injection hf with hf; subst hf; exact execV_below e hb.2.2.2) hx)
  | .while i c b, hb, st, st', l, sp, h => by
    simp only [execV] at h
    split at h
    · cases h
    · rename_i hx
      simp only [Except.ok.injEq, Prod.mk.injEq] at h
      obtain ⟨rfl, rfl, rfl⟩ := h
      exact (inside_at hb.1).append (whileLoopV_below
        (fun st st' l s cr h => conditionalV_below hb.2.1 (execV_below b hb.2.2)
          (by intro f hf; cases hf) h) fuel _ _ _ _ hx)
  | .block i b, hb, st, st', l, sp, h => by
    simp only [execV] at h
    split at h
    · cases h
    · rename_i hx
      simp only [Except.ok.injEq, Prod.mk.injEq] at h
      obtain ⟨rfl, rfl, rfl⟩ := h
      exact (inside_at hb.1).append (execV_below b hb.2 _ _ _ _ hx)
  | .init i b, hb, st, st', l, sp, h => by
    simp only [execV] at h
    split at h
    · cases h
    · rename_i hx
      simp only [Except.ok.injEq, Prod.mk.injEq] at h
      obtain ⟨rfl, rfl, rfl⟩ := h
      exact (inside_at hb.1).append (execV_below b hb.2 _ _ _ _ hx)

theorem reachAll_total {m : Nat} : ∀ {l : List Nat} {a : Analysis}, a.reached.length = m →
    (∀ i ∈ l, i < m) → ∃ a', reachAll a l = .ok a' ∧ a'.reached.length = m
  | [], a, ha, _ => ⟨a, rfl, ha⟩
  | i :: l, a, ha, h => by
    have hi : i < a.reached.length := by rw [ha]; exact h i (by simp)
    simp only [reachAll, setReached, if_pos hi]
    exact reachAll_total (by simpa using ha) (fun j hj => h j (by simp [hj]))

theorem recordAll_total {m : Nat} : ∀ {l : List (Nat × V)} {a : Analysis}, a.computed.length = m →
    (∀ x ∈ l, x.1 < m) → ∃ a', recordAll a l = .ok a' ∧ a'.computed.length = m
  | [], a, ha, _ => ⟨a, rfl, ha⟩
  | (i, v) :: l, a, ha, h => by
    have hi : i < a.computed.length := by rw [ha]; exact h (i, v) (by simp)
    obtain ⟨a1, h1⟩ : ∃ a1, record a i v = .ok a1 := by
      unfold record
      rw [List.getElem?_eq_getElem hi]
      cases v <;> exact ⟨_, rfl⟩
    simp only [recordAll, h1]
    exact recordAll_total ((record_spec h1).1.trans ha) (fun j hj => h j (by simp [hj]))

/-- Both tables have the given size. -/
def Sized (m : Nat) (A : Analysis) : Prop := A.reached.length = m ∧ A.computed.length = m

theorem readComputed_total {m i : Nat} {A : Analysis} (hA : Sized m A) (h : i < m) :
    ∃ o, readComputed A i = .ok o := by
  unfold readComputed
  rw [List.getElem?_eq_getElem (by rw [hA.2]; exact h)]
  split <;> rename_i hx
  · cases hx
  · exact ⟨_, rfl⟩
  · exact ⟨_, rfl⟩

theorem choose_total {m : Nat} {A : Analysis} (hA : Sized m A) {field : Int} {c : LExpr}
    (hc : c.id < m) {k y n : LStmt} (hk : LStmt.Below m k) (hy : LStmt.Below m y) (hn : LStmt.Below m n) :
    ∃ s, choose A field c k y n = .ok s ∧ LStmt.Below m s := by
  obtain ⟨o, ho⟩ := readComputed_total hA hc
  unfold choose
  rw [ho]
  cases o with
  | none => exact ⟨_, rfl, hk⟩
  | some v =>
    simp only
    split
    · exact ⟨_, rfl, hy⟩
    · exact ⟨_, rfl, hn⟩

theorem below_id {m : Nat} : ∀ {e : LExpr}, LExpr.Below m e → e.id < m
  | .num _ _, h => h
  | .var _ _, h => h
  | .sig _ _, h => h
  | .bin _ _ _ _, h => h.1
  | .un _ _ _, h => h.1
  | .ite _ _ _ _, h => h.1

theorem below_sid {m : Nat} : ∀ {s : LStmt}, s ≠ .nil → (∀ a b, s ≠ .cons a b) → LStmt.Below m s → s.id < m
  | .nil, h, _, _ => absurd rfl h
  | .cons a b, _, h, _ => absurd rfl (h a b)
  | .decl _ _, _, _, h => h
  | .assign _ _ _, _, _, h => h.1
  | .sassign _ _ _, _, _, h => h.1
  | .cassign _ _ _, _, _, h => h.1
  | .check _ _ _, _, _, h => h.1
  | .ifThen _ _ _, _, _, h => h.1
  | .ifElse _ _ _ _, _, _, h => h.1
  | .while _ _ _, _, _, h => h.1
  | .block _ _, _, _, h => h.1
  | .init _ _, _, _, h => h.1

theorem clean_total {m : Nat} {A : Analysis} (hA : Sized m A) {field : Int} : ∀ (s : LStmt),
    s.Proper → LStmt.Below m s → ∃ s' n, clean A field s = .ok (s', n) ∧ LStmt.Below m s'
  | .nil, _, h => ⟨_, _, rfl, h⟩
  | .decl _ _, _, h => ⟨_, _, rfl, h⟩
  | .assign _ _ _, _, h => ⟨_, _, rfl, h⟩
  | .sassign _ _ _, _, h => ⟨_, _, rfl, h⟩
  | .cassign _ _ _, _, h => ⟨_, _, rfl, h⟩
  | .check _ _ _, _, h => ⟨_, _, rfl, h⟩
  | .init _ _, _, h => ⟨_, _, rfl, h⟩
  | .cons s rest, hp, h => by
    have hid := below_sid hp.1 hp.2.1 h.1
    obtain ⟨b, hb⟩ : ∃ b, isReached A s.id = .ok b := by
      unfold isReached
      rw [List.getElem?_eq_getElem (by rw [hA.1]; exact hid)]
      exact ⟨_, rfl⟩
    obtain ⟨r', k, g1, g2⟩ := clean_total (field := field) hA rest hp.2.2.2 h.2
    simp only [clean, hb]
    cases b with
    | false => exact ⟨_, _, g1, g2⟩
    | true =>
      obtain ⟨s', n, g3, g4⟩ := clean_total (field := field) hA s hp.2.2.1 h.1
      simp only [g3, g1]
      cases n with
      | true => exact ⟨_, _, rfl, g2⟩
      | false => exact ⟨_, _, rfl, g4, g2⟩
  | .ifThen i c t, hp, h => by
    obtain ⟨t', n, g1, g2⟩ := clean_total (field := field) hA t hp h.2.2
    obtain ⟨s, g3, g4⟩ := choose_total (field := field) hA (below_id h.2.1)
      (k := .ifThen i c t') (y := t') (n := .block i .nil) ⟨h.1, h.2.1, g2⟩ g2 ⟨h.1, trivial⟩
    simp only [clean, g1, g3]
    exact ⟨_, _, rfl, g4⟩
  | .ifElse i c t e, hp, h => by
    obtain ⟨t', n, g1, g2⟩ := clean_total (field := field) hA t hp.1 h.2.2.1
    obtain ⟨e', k, g3, g4⟩ := clean_total (field := field) hA e hp.2 h.2.2.2
    have : ∃ s, choose A field c (if k then .ifThen i c t' else .ifElse i c t' e') t'
        (if k then .block i .nil else e') = .ok s ∧ LStmt.Below m s := by
      apply choose_total hA (below_id h.2.1)
      · cases k
        · exact ⟨h.1, h.2.1, g2, g4⟩
        · exact ⟨h.1, h.2.1, g2⟩
      · exact g2
      · cases k
        · exact g4
        · exact ⟨h.1, trivial⟩
    obtain ⟨s, g5, g6⟩ := this
    simp only [clean, g1, g3, g5]
    exact ⟨_, _, rfl, g6⟩
  | .while i c b, hp, h => by
    obtain ⟨t', n, g1, g2⟩ := clean_total (field := field) hA b hp h.2.2
    simp only [clean, g1]
    exact ⟨_, _, rfl, h.1, h.2.1, g2⟩
  | .block i b, hp, h => by
    obtain ⟨t', n, g1, g2⟩ := clean_total (field := field) hA b hp h.2
    simp only [clean, g1]
    exact ⟨_, _, rfl, h.1, g2⟩

theorem foldE_total {m : Nat} {A : Analysis} (hA : Sized m A) : ∀ (e : LExpr), LExpr.Below m e →
    ∃ e', foldE A e = .ok e' := by
  intro e
  induction e with
  | num i v | var i v | sig i v =>
    intro h
    obtain ⟨o, ho⟩ := readComputed_total hA (below_id h)
    rw [foldE.eq_def, ho]
    cases o <;> exact ⟨_, rfl⟩
  | bin i op l r ihl ihr =>
    intro h
    obtain ⟨o, ho⟩ := readComputed_total hA (below_id h)
    obtain ⟨l', hl⟩ := ihl h.2.1
    obtain ⟨r', hr⟩ := ihr h.2.2
    rw [foldE.eq_def, ho]
    cases o <;> simp only [hl, hr] <;> exact ⟨_, rfl⟩
  | un i op x ih =>
    intro h
    obtain ⟨o, ho⟩ := readComputed_total hA (below_id h)
    obtain ⟨l', hl⟩ := ih h.2
    rw [foldE.eq_def, ho]
    cases o <;> simp only [hl] <;> exact ⟨_, rfl⟩
  | ite i c x y ihc ihx ihy =>
    intro h
    obtain ⟨o, ho⟩ := readComputed_total hA (below_id h)
    obtain ⟨c', hc⟩ := ihc h.2.1
    obtain ⟨l', hl⟩ := ihx h.2.2.1
    obtain ⟨r', hr⟩ := ihy h.2.2.2
    rw [foldE.eq_def, ho]
    cases o <;> simp only [hl, hr, hc] <;> exact ⟨_, rfl⟩

theorem foldS_total {m : Nat} {A : Analysis} (hA : Sized m A) : ∀ (s : LStmt), LStmt.Below m s →
    ∃ s', foldS A s = .ok s'
  | .nil, _ => ⟨_, rfl⟩
  | .decl _ _, _ => ⟨_, rfl⟩
  | .assign _ _ e, h => by
    obtain ⟨e', he⟩ := foldE_total hA e h.2
    simp only [foldS, he]; exact ⟨_, rfl⟩
  | .sassign _ _ e, h => by
    obtain ⟨e', he⟩ := foldE_total hA e h.2
    simp only [foldS, he]; exact ⟨_, rfl⟩
  | .cassign _ _ e, h => by
    obtain ⟨e', he⟩ := foldE_total hA e h.2
    simp only [foldS, he]; exact ⟨_, rfl⟩
  | .check _ l r, h => by
    obtain ⟨l', hl⟩ := foldE_total hA l h.2.1
    obtain ⟨r', hr⟩ := foldE_total hA r h.2.2
    simp only [foldS, hl, hr]; exact ⟨_, rfl⟩
  | .cons s rest, h => by
    obtain ⟨s', hs⟩ := foldS_total hA s h.1
    obtain ⟨r', hr⟩ := foldS_total hA rest h.2
    simp only [foldS, hs, hr]; exact ⟨_, rfl⟩
  | .ifThen _ c t, h => by
    obtain ⟨c', hc⟩ := foldE_total hA c h.2.1
    obtain ⟨t', ht⟩ := foldS_total hA t h.2.2
    simp only [foldS, hc, ht]; exact ⟨_, rfl⟩
  | .ifElse _ c t e, h => by
    obtain ⟨c', hc⟩ := foldE_total hA c h.2.1
    obtain ⟨t', ht⟩ := foldS_total hA t h.2.2.1
    obtain ⟨e', he⟩ := foldS_total hA e h.2.2.2
    simp only [foldS, hc, ht, he]; exact ⟨_, rfl⟩
  | .while _ c b, h => by
    obtain ⟨c', hc⟩ := foldE_total hA c h.2.1
    obtain ⟨t', ht⟩ := foldS_total hA b h.2.2
    simp only [foldS, hc, ht]; exact ⟨_, rfl⟩
  | .block _ b, h => by
    obtain ⟨t', ht⟩ := foldS_total hA b h.2
    simp only [foldS, ht]; exact ⟨_, rfl⟩
  | .init _ b, h => by
    obtain ⟨t', ht⟩ := foldS_total hA b h.2
    simp only [foldS, ht]; exact ⟨_, rfl⟩

/-- C72: filtering never aborts: if all identifiers are below the bound with which the analysis is
created, a template whose symbolic execution succeeds is filtered. -/
theorem C72_total {s : LStmt} {idMax fuel : Nat} {field : Int} {inputs : List Nat} (hprop : s.Proper)
    (hb : LStmt.Below idMax s) {st : St} {l sp : Visits}
    (h : execV fuel field s (start inputs) = .ok (st, l, sp)) :
    ∃ A s', analyse idMax l = .ok A ∧ filterCode A field s = .ok s' := by
  obtain ⟨h1, h2⟩ := execV_below s hb _ _ _ _ h
  obtain ⟨a, g1, g2⟩ := reachAll_total (a := new idMax) (by simp [Verif.Analysis.new]) h1
  have hcl : a.computed.length = idMax := by rw [reachAll_computed g1]; simp [Verif.Analysis.new]
  obtain ⟨A, g3, g4⟩ := recordAll_total hcl h2
  have hA : Sized idMax A := ⟨by rw [recordAll_reached g3]; exact g2, g4⟩
  obtain ⟨s1, n, g5, g6⟩ := clean_total (field := field) hA s hprop hb
  obtain ⟨s', g7⟩ := foldS_total hA s1 g6
  refine ⟨A, s', ?_, ?_⟩
  · unfold analyse; rw [g1]; exact g3
  · unfold filterCode; rw [g5]; exact g7

example : LStmt.Below 38 sample ∧ ¬ LStmt.Below 37 sample ∧
    (match compileT 10 101 [1] 38 sample with | some _ => true | none => false) = true ∧
    (match compileT 10 101 [1] 37 sample with | some _ => true | none => false) = false := by
  refine ⟨?_, ?_, by decide +kernel, by decide +kernel⟩ <;>
    simp [sample, list, LStmt.Below, LExpr.Below]

/-! ### Where C72 fails -/

/-- `{ var a = 0; var b = 0; var y = 0; var i = 0; while (i < in) { y = b; if (a == 1) { b = 1; }
a = 1; i = i + 1; } o <-- y; }` -/
def loopProgram (yb : LExpr) : LStmt := .block 0 (list [
  .decl 1 1, .assign 2 1 (.num 3 0), .decl 4 2, .assign 5 2 (.num 6 0),
  .decl 7 3, .assign 8 3 (.num 9 0), .decl 10 4, .assign 11 4 (.num 12 0),
  .while 13 (.bin 14 .lesser (.var 15 4) (.sig 16 1)) (.block 17 (list [
    .assign 18 3 yb,
    .ifThen 20 (.bin 21 .eq (.var 22 1) (.num 23 1)) (.block 24 (list [.assign 25 2 (.num 26 1)])),
    .assign 27 1 (.num 28 1),
    .assign 29 4 (.bin 30 .add (.var 31 4) (.num 32 1))])),
  .sassign 33 2 (.var 34 3)])

/-- C72 fails for loops with unknown condition: they are executed only twice, `y = b` is replaced by
`y = 0`, and for `in = 3` the template assigns 0 instead of 1. -/
theorem C72_loop_violated :
    (loopProgram (.var 19 2)).Proper ∧ (loopProgram (.var 19 2)).erase.Scoped true ∧
    (loopProgram (.var 19 2)).erase.Lits 101 ∧
    filtered 10 101 [1] 40 (loopProgram (.var 19 2)) = some (loopProgram (.num 19 0)) ∧
    runAll 10 101 (vals [1, 3, 1]) (loopProgram (.var 19 2)) [[]] = some ([[]], ⟨[2], [(1, 1)]⟩, none) ∧
    runAll 10 101 (vals [1, 3, 1]) (loopProgram (.num 19 0)) [[]] = some ([[]], ⟨[2], [(1, 0)]⟩, none) := by
  refine ⟨?_, ?_, ?_, by decide +kernel, by decide +kernel, by decide +kernel⟩
  · simp [loopProgram, list, LStmt.Proper]
  · simp [loopProgram, list, LStmt.erase, Stmt.Scoped]
  · simp [loopProgram, list, LStmt.erase, LExpr.erase, Stmt.Lits, Expr.Lits]

/-- `{ var c = 1; var a = 5; var y = 0; var i = 0; while (i < 2) { y = c ? a : 0; c = in; a = 7;
i = i + 1; } o <-- y; }` -/
def iteProgram (ya : LExpr) : LStmt := .block 0 (list [
  .decl 1 1, .assign 2 1 (.num 3 1), .decl 4 2, .assign 5 2 (.num 6 5),
  .decl 7 3, .assign 8 3 (.num 9 0), .decl 10 4, .assign 11 4 (.num 12 0),
  .while 13 (.bin 14 .lesser (.var 15 4) (.num 16 2)) (.block 17 (list [
    .assign 18 3 (.ite 19 (.var 20 1) ya (.num 22 0)),
    .assign 23 1 (.sig 24 1),
    .assign 25 2 (.num 26 7),
    .assign 27 4 (.bin 28 .add (.var 29 4) (.num 30 1))])),
  .sassign 31 2 (.var 32 3)])

/-- C72 fails for inline conditionals: the branches are not evaluated if the condition is unknown, so
a value recorded when it was known is used for all times. Here `a` is replaced by 5, and for `in = 1`
the template assigns 5 instead of 7. All loops are stable. -/
theorem C72_ternary_violated :
    (iteProgram (.var 21 2)).Proper ∧ (iteProgram (.var 21 2)).erase.Scoped true ∧
    (iteProgram (.var 21 2)).erase.Lits 101 ∧
    (match compileT 10 101 [1] 40 (iteProgram (.var 21 2)) with
      | some (st, _, _, _, s') => !st.unstable && decide (s' = iteProgram (.num 21 5))
      | none => false) = true ∧
    runAll 10 101 (vals [1, 1, 7]) (iteProgram (.var 21 2)) [[]] = some ([[]], ⟨[2], [(7, 7)]⟩, none) ∧
    runAll 10 101 (vals [1, 1, 7]) (iteProgram (.num 21 5)) [[]] = some ([[]], ⟨[2], [(7, 5)]⟩, none) := by
  refine ⟨?_, ?_, ?_, by decide +kernel, by decide +kernel, by decide +kernel⟩
  · simp [iteProgram, list, LStmt.Proper]
  · simp [iteProgram, list, LStmt.erase, Stmt.Scoped]
  · simp [iteProgram, list, LStmt.erase, LExpr.erase, Stmt.Lits, Expr.Lits]

/-- `{ while (in == 1) {} o <-- 3; }` -/
def endless : LStmt := .block 0 (list [
  .while 1 (.bin 2 .eq (.sig 3 1) (.num 4 1)) (.block 5 .nil), .sassign 6 2 (.num 7 3)])

theorem endless_loop {body : CEnv → Option (CEnv × Trace × Option Int)}
    (hbody : ∀ env, body env = some (env, .nil, none)) : ∀ n env,
    cLoop 101 (vals [1, 1, 3]) (.bin .eq (.sig 1) (.num 1)) body n env = none
  | 0, _ => rfl
  | n + 1, env => by
    have hc : cEval 101 (vals [1, 1, 3]) env (.bin .eq (.sig 1) (.num 1)) = some 1 := by
      simp only [cEval]
      decide +kernel
    have h1 : asBool 1 101 = true := by decide +kernel
    simp only [cLoop, hc, h1, if_true, hbody, endless_loop hbody n, Option.map_none]

/-- C72 fails for runs that do not end: a loop with empty body is removed whatever its condition, so
that for `in = 1` the filtered template finishes while the original never does. -/
theorem C72_endless_violated :
    filtered 10 101 [1] 10 endless = some (.block 0 (list [.sassign 6 2 (.num 7 3)])) ∧
    (∀ n, runAll n 101 (vals [1, 1, 3]) endless [[]] = none) ∧
    runAll 10 101 (vals [1, 1, 3]) (.block 0 (list [.sassign 6 2 (.num 7 3)])) [[]] =
      some ([[]], ⟨[2], [(3, 3)]⟩, none) := by
  refine ⟨by decide +kernel, fun n => ?_, by decide +kernel⟩
  simp only [runAll, endless, list, List.foldr, LStmt.loud, LStmt.erase, LExpr.erase, run]
  rw [endless_loop (body := fun x => Option.map
    (fun x : CEnv × Trace × Option Int => (List.tail x.1, x.2.1, x.2.2)) (some ([] :: x, Trace.nil, none)))
    (fun env => rfl)]
  rfl

end Verif.Props.Filters
