import Verif.Analysis

set_option linter.unusedSectionVars false
set_option linter.unusedSimpArgs false

/-!
Property C46: the records of symbolic execution used for constant folding and dead code removal
(`constraint_generation/src/execution_data/analysis.rs`).
-/

namespace Verif.Props.Analysis

open Verif.ModArith Verif.Algebra Verif.Analysis

/-- What one visit contributes. -/
def contribution : AExpr Nat → ValuePOS
  | .number v => .val v
  | _ => .top

theorem record_spec {a a' : Analysis} {id : Nat} {v : AExpr Nat} (h : record a id v = .ok a') :
    a'.computed.length = a.computed.length ∧ ∀ j, a'.computed[j]? =
      if j = id then (a.computed[id]?).map (leastUpperBound · (contribution v)) else a.computed[j]? := by
  unfold record at h
  split at h
  · cases h
  · rename_i old hold
    have hlt : id < a.computed.length := (List.getElem?_eq_some_iff.1 hold).1
    have key : ∀ x, x = leastUpperBound old (contribution v) →
        a' = { a with computed := a.computed.set id x } →
        a'.computed.length = a.computed.length ∧ ∀ j, a'.computed[j]? =
          if j = id then (a.computed[id]?).map (leastUpperBound · (contribution v)) else a.computed[j]? := by
      rintro x rfl rfl
      refine ⟨by simp, fun j => ?_⟩
      by_cases hj : j = id
      · subst hj
        rw [if_pos rfl, hold, List.getElem?_set_self hlt]
        rfl
      · simp only [if_neg hj]
        exact List.getElem?_set_ne (Ne.symm hj)
    cases v with
    | number n =>
      simp only [Except.ok.injEq] at h
      exact key _ rfl h.symm
    | _ =>
      simp only [Except.ok.injEq] at h
      exact key .top (by cases old <;> rfl) h.symm

/-- The state reached from `old` by the given values is a number exactly if all agree with it. -/
theorem fold_val (old : ValuePOS) (vs : List (AExpr Nat)) (n : Int) :
    (vs.map contribution).foldl leastUpperBound old = .val n ↔
      (old = .val n ∨ (old = .bottom ∧ vs ≠ [])) ∧ ∀ v ∈ vs, v = .number n := by
  induction vs generalizing old with
  | nil => simp
  | cons v vs ih =>
    rw [List.map_cons, List.foldl_cons, ih]
    cases v with
    | number m =>
      cases old with
      | bottom =>
        simp only [contribution, leastUpperBound, ValuePOS.val.injEq, List.mem_cons, forall_eq_or_imp,
          AExpr.number.injEq, reduceCtorEq, false_or, false_and, or_false]
        constructor
        · rintro ⟨rfl, h⟩; exact ⟨⟨trivial, by simp⟩, rfl, h⟩
        · rintro ⟨_, rfl, h⟩; exact ⟨rfl, h⟩
      | val k =>
        simp only [contribution, leastUpperBound, List.mem_cons, forall_eq_or_imp, AExpr.number.injEq,
          ValuePOS.val.injEq, reduceCtorEq, false_and, or_false]
        by_cases hk : k = m
        · subst hk
          simp only [if_true, ValuePOS.val.injEq, reduceCtorEq, false_and, or_false]
          constructor
          · rintro ⟨rfl, h⟩; exact ⟨rfl, rfl, h⟩
          · rintro ⟨rfl, _, h⟩; exact ⟨rfl, h⟩
        · simp only [if_neg hk, reduceCtorEq, false_and, or_false, false_or]
          constructor
          · rintro ⟨h, _⟩
          · rintro ⟨rfl, rfl, _⟩; exact hk rfl
      | top => simp [contribution, leastUpperBound]
    | _ => cases old <;> simp [contribution, leastUpperBound]

theorem recordAll_spec {visits : List (Nat × AExpr Nat)} {a a' : Analysis}
    (h : recordAll a visits = .ok a') (j : Nat) :
    a'.computed[j]? = (a.computed[j]?).map
      ((((visits.filter fun x => x.1 = j).map (·.2)).map contribution).foldl leastUpperBound) := by
  induction visits generalizing a with
  | nil =>
    simp only [recordAll, Except.ok.injEq] at h
    subst h
    simp
  | cons x rest ih =>
    obtain ⟨id, v⟩ := x
    simp only [recordAll] at h
    split at h
    · cases h
    · rename_i a1 h1
      obtain ⟨_, g⟩ := record_spec h1
      rw [ih h, g j]
      by_cases hj : j = id
      · subst hj
        simp only [if_true, Option.map_map, decide_true, List.filter_cons_of_pos, List.map_cons,
          List.foldl_cons]
        rfl
      · simp only [if_neg hj]
        rw [List.filter_cons_of_neg (by simpa using Ne.symm hj)]

/-- C46: an expression is replaced by the number `n` exactly if it was visited and every symbolic
evaluation of it gave the number `n`. -/
theorem C46_folded_iff {idMax : Nat} {visits : List (Nat × AExpr Nat)} {a : Analysis}
    (h : recordAll (new idMax) visits = .ok a) {id : Nat} (hid : id < idMax) (n : Int) :
    readComputed a id = .ok (some n) ↔
      (∃ v, (id, v) ∈ visits) ∧ ∀ v, (id, v) ∈ visits → v = .number n := by
  have hg := recordAll_spec h id
  rw [show (new idMax).computed[id]? = some .bottom by simp [new, hid]] at hg
  simp only [Option.map_some] at hg
  have hread : readComputed a id = .ok (some n) ↔
      (((visits.filter fun x => x.1 = id).map (·.2)).map contribution).foldl leastUpperBound .bottom =
        .val n := by
    unfold readComputed
    rw [hg]
    cases (((visits.filter fun x => x.1 = id).map (·.2)).map contribution).foldl leastUpperBound .bottom
      <;> simp
  rw [hread, fold_val]
  have hmem : ∀ v, v ∈ (visits.filter fun x => x.1 = id).map (·.2) ↔ (id, v) ∈ visits := by
    intro v
    simp only [List.mem_map, List.mem_filter, decide_eq_true_eq]
    constructor
    · rintro ⟨⟨i, u⟩, ⟨h1, rfl⟩, rfl⟩; exact h1
    · intro h1; exact ⟨(id, v), ⟨h1, rfl⟩, rfl⟩
  simp only [hmem, reduceCtorEq, false_or, true_and]
  constructor
  · rintro ⟨h1, h2⟩
    obtain ⟨v, hv⟩ := List.exists_mem_of_ne_nil _ h1
    exact ⟨⟨v, (hmem v).1 hv⟩, h2⟩
  · rintro ⟨⟨v, hv⟩, h2⟩
    exact ⟨List.ne_nil_of_mem ((hmem v).2 hv), h2⟩

/-- C46: the order of the visits does not matter. -/
theorem C46_order_irrelevant {idMax : Nat} {visits visits' : List (Nat × AExpr Nat)} {a a' : Analysis}
    (hperm : visits.Perm visits') (h : recordAll (new idMax) visits = .ok a)
    (h' : recordAll (new idMax) visits' = .ok a') {id : Nat} (hid : id < idMax) :
    readComputed a id = readComputed a' id := by
  have total : ∀ {vs : List (Nat × AExpr Nat)} {b : Analysis}, recordAll (new idMax) vs = .ok b →
      ∃ o, readComputed b id = .ok o := by
    intro vs b hb
    have hg := recordAll_spec hb id
    rw [show (new idMax).computed[id]? = some .bottom by simp [new, hid]] at hg
    simp only [Option.map_some] at hg
    unfold readComputed
    rw [hg]
    split
    · rename_i h; cases h
    · exact ⟨_, rfl⟩
    · exact ⟨_, rfl⟩
  obtain ⟨o, ho⟩ := total h
  obtain ⟨o', ho'⟩ := total h'
  have key : ∀ n, o = some n ↔ o' = some n := by
    intro n
    have e1 := C46_folded_iff h hid n
    have e2 := C46_folded_iff h' hid n
    rw [ho] at e1
    rw [ho'] at e2
    simp only [Except.ok.injEq] at e1 e2
    rw [e1, e2]
    simp only [hperm.mem_iff]
  rw [ho, ho']
  cases o with
  | some n => rw [(key n).1 rfl]
  | none =>
    cases o' with
    | none => rfl
    | some n => exact absurd ((key n).2 rfl) (by simp)

/-- C46: once two visits differ, or one is not a number, the expression is never replaced, whatever
follows. -/
theorem C46_never_again {idMax : Nat} {visits more : List (Nat × AExpr Nat)} {a : Analysis}
    (h : recordAll (new idMax) (visits ++ more) = .ok a) {id : Nat} (hid : id < idMax)
    {u v : AExpr Nat} (hu : (id, u) ∈ visits) (hv : (id, v) ∈ visits)
    (hne : u ≠ v ∨ ∀ n, u ≠ .number n) (n : Int) : readComputed a id ≠ .ok (some n) := by
  intro hr
  obtain ⟨_, hall⟩ := (C46_folded_iff h hid n).1 hr
  have h1 := hall u (List.mem_append_left _ hu)
  have h2 := hall v (List.mem_append_left _ hv)
  rcases hne with hne | hne
  · exact hne (h1.trans h2.symm)
  · exact hne n h1

/-- The records exist exactly if all identifiers are in range. -/
theorem C46_total {idMax : Nat} {visits : List (Nat × AExpr Nat)} :
    (∃ a, recordAll (new idMax) visits = .ok a) ↔ ∀ x ∈ visits, x.1 < idMax := by
  have key : ∀ (a : Analysis), a.computed.length = idMax →
      ((∃ a', recordAll a visits = .ok a') ↔ ∀ x ∈ visits, x.1 < idMax) := by
    induction visits with
    | nil => intro a _; simp [recordAll]
    | cons x rest ih =>
      intro a ha
      obtain ⟨id, v⟩ := x
      simp only [recordAll, List.mem_cons, forall_eq_or_imp]
      by_cases hid : id < idMax
      · have : ∃ a1, record a id v = .ok a1 := by
          unfold record
          rw [List.getElem?_eq_getElem (by omega)]
          cases v <;> exact ⟨_, rfl⟩
        obtain ⟨a1, h1⟩ := this
        rw [h1]
        rw [ih a1 ((record_spec h1).1.trans ha)]
        simp [hid]
      · have : record a id v = .error .panic := by
          unfold record
          rw [List.getElem?_eq_none (by omega)]
        rw [this]
        simp [hid]
  exact key _ (by simp [new])

/-- C46, statements: a statement is kept exactly if it was reached. -/
theorem C46_reached_iff {idMax : Nat} {visits : List Nat} {a : Analysis}
    (h : reachAll (new idMax) visits = .ok a) {id : Nat} (hid : id < idMax) :
    isReached a id = .ok (decide (id ∈ visits)) := by
  have key : ∀ (b : Analysis), b.reached.length = idMax → reachAll b visits = .ok a →
      a.reached[id]? = (b.reached[id]?).map (· || decide (id ∈ visits)) := by
    clear h
    induction visits with
    | nil =>
      intro b _ h
      simp only [reachAll, Except.ok.injEq] at h
      subst h
      simp
    | cons x rest ih =>
      intro b hb h
      simp only [reachAll] at h
      split at h
      · cases h
      · rename_i b1 h1
        unfold setReached at h1
        split at h1
        · injection h1 with h1
          subst h1
          rw [ih _ (by simpa using hb) h]
          by_cases hx : x = id
          · subst hx
            simp [List.getElem?_set, hb, hid]
          · rw [List.getElem?_set_ne hx]
            congr 1
            funext y
            simp [Ne.symm hx]
        · cases h1
  have := key (new idMax) (by simp [new]) h
  unfold isReached
  rw [this]
  simp [new, hid]

/-- Three expressions: one always 5, one with two different values, one never visited. -/
example : (match recordAll (new 3) [(0, .number 5), (1, .number 2), (0, .number 5), (1, .number 3)] with
    | .ok a => decide (readComputed a 0 = .ok (some 5)) && decide (readComputed a 1 = .ok none) &&
        decide (readComputed a 2 = .ok none)
    | _ => false) = true := by decide +kernel

example : (match recordAll (new 1) ([(0, .number 5), (0, .signal 1)] ++ [(0, .number 5)]) with
    | .ok a => decide (readComputed a 0 = .ok none)
    | _ => false) = true := by decide +kernel

example : (match reachAll (new 3) [2, 0] with
    | .ok a => decide (isReached a 2 = .ok true) && decide (isReached a 1 = .ok false)
    | _ => false) = true := by decide +kernel

end Verif.Props.Analysis
