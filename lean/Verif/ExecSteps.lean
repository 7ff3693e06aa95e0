import Verif.ExecLemmas

/-!
Lemmas for the executor: inversion of the conditional, bookkeeping facts that hold for every
execution, and the effect of executions inside branches of unknown conditions.
-/

set_option linter.unusedSectionVars false
set_option linter.unusedSimpArgs false

namespace Verif.Exec

open Verif.ModArith Verif.Algebra

/-- Inversion of `conditional`. -/
theorem conditional_cases {field : Int} {c : Expr} {t : St → Ex (St × Option V)}
    {e : Option (St → Ex (St × Option V))} {st st' : St} {r : Option V} {cr : Option Bool}
    (h : conditional field c t e st = .ok (st', r, cr)) :
    ∃ vc, eval field st.sigs st.env c = .ok vc ∧
      ((getBool vc field = some true ∧ cr = some true ∧ t st = .ok (st', r)) ∨
       (getBool vc field = some false ∧ cr = some false ∧ e = none ∧ st' = st ∧ r = none) ∨
       (∃ f, getBool vc field = some false ∧ cr = some false ∧ e = some f ∧ f st = .ok (st', r)) ∨
       (getBool vc field = none ∧ cr = none ∧ e = none ∧
          ∃ st1, t (enter st) = .ok (st1, r) ∧ st' = leave st st1) ∨
       (∃ f st1 r1 last st2 r2, getBool vc field = none ∧ cr = none ∧ e = some f ∧
          t (enter st) = .ok (st1, r1) ∧ st1.conds.getLast? = some last ∧
          f (flip last st1) = .ok (st2, r2) ∧ st' = leave st st2 ∧ r = r1.or r2)) := by
  unfold conditional at h
  split at h
  · cases h
  rename_i vc hvc
  refine ⟨vc, hvc, ?_⟩
  split at h
  · rename_i hb
    left
    split at h
    · cases h
    · rename_i st1 r1 ht
      simp only [Except.ok.injEq, Prod.mk.injEq] at h
      obtain ⟨rfl, rfl, rfl⟩ := h
      exact ⟨hb, rfl, ht⟩
  · rename_i hb
    right
    split at h
    · simp only [Except.ok.injEq, Prod.mk.injEq] at h
      obtain ⟨rfl, rfl, rfl⟩ := h
      exact .inl ⟨hb, rfl, rfl, rfl, rfl⟩
    · rename_i f
      split at h
      · cases h
      · rename_i st1 r1 ht
        simp only [Except.ok.injEq, Prod.mk.injEq] at h
        obtain ⟨rfl, rfl, rfl⟩ := h
        exact .inr (.inl ⟨f, hb, rfl, rfl, ht⟩)
  · rename_i hb
    right; right; right
    split at h
    · cases h
    · rename_i st1 r1 ht
      split at h
      · simp only [Except.ok.injEq, Prod.mk.injEq] at h
        obtain ⟨rfl, rfl, rfl⟩ := h
        exact .inl ⟨hb, rfl, rfl, st1, ht, rfl⟩
      · rename_i f
        split at h
        · cases h
        · rename_i last hlast
          split at h
          · cases h
          · rename_i st2 r2 hf
            simp only [Except.ok.injEq, Prod.mk.injEq] at h
            obtain ⟨rfl, rfl, rfl⟩ := h
            exact .inr ⟨f, st1, r1, last, st2, r2, hb, rfl, rfl, ht, hlast, hf, rfl, rfl⟩

/-! ### Relations kept by every execution -/

/-- A relation between states before and after that is kept by every elementary action. -/
structure Kept (R : St → St → Prop) : Prop where
  refl : ∀ st, R st st
  trans : ∀ {a b c}, R a b → R b c → R a c
  enter : ∀ st, R st (enter st)
  flip : ∀ st last, st.conds.getLast? = some last → R st (flip last st)
  leave : ∀ old st, R st (leave old st)
  startLoop : ∀ st, R st (startLoop st)
  endIteration : ∀ st, R st (endIteration st)
  mark : ∀ step st, R st (markUnstable step st)
  env : ∀ st env, R st { st with env := env }
  cons : ∀ st cons, R st { st with cons := cons }
  assign : ∀ st s a, assignCell (st.sigs s) (pendingState st.conds) = .ok a → R st { st with
    sigs := fun t => if t = s then a else st.sigs t
    log := st.log ++ [(s, st.conds)] }

theorem Kept.conditional {R : St → St → Prop} (hR : Kept R) {field : Int} {c : Expr}
    {t : St → Ex (St × Option V)} {e : Option (St → Ex (St × Option V))}
    (ht : ∀ st st' r, t st = .ok (st', r) → R st st')
    (he : ∀ f, e = some f → ∀ st st' r, f st = .ok (st', r) → R st st')
    {st st' : St} {r : Option V} {cr : Option Bool}
    (h : conditional field c t e st = .ok (st', r, cr)) : R st st' := by
  obtain ⟨vc, _, hc⟩ := conditional_cases h
  clear h
  rcases hc with ⟨_, _, h⟩ | ⟨_, _, _, rfl, _⟩ | ⟨f, _, _, hf, h⟩ | ⟨_, _, _, st1, h, rfl⟩ |
    ⟨f, st1, r1, last, st2, r2, _, _, hf, h1, hl, h2, rfl, _⟩
  · exact ht _ _ _ h
  · exact hR.refl _
  · exact he f hf _ _ _ h
  · exact hR.trans (hR.enter _) (hR.trans (ht _ _ _ h) (hR.leave _ _))
  · exact hR.trans (hR.enter _) (hR.trans (ht _ _ _ h1) (hR.trans (hR.flip _ _ hl)
      (hR.trans (he f hf _ _ _ h2) (hR.leave _ _))))

theorem Kept.whileLoop {R : St → St → Prop} (hR : Kept R)
    {step : St → Ex (St × Option V × Option Bool)}
    (hs : ∀ st st' r cr, step st = .ok (st', r, cr) → R st st') :
    ∀ (fuel : Nat) (st st' : St) (r : Option V), whileLoop step fuel st = .ok (st', r) → R st st'
  | 0, st, st', r, h => by simp [Exec.whileLoop] at h
  | fuel + 1, st, st', r, h => by
    rw [Exec.whileLoop] at h
    split at h
    · cases h
    · rename_i st1 v cr h1
      simp only [Except.ok.injEq, Prod.mk.injEq] at h
      obtain ⟨rfl, _⟩ := h
      exact hs _ _ _ _ h1
    · rename_i st1 h1
      split at h
      · cases h
      · rename_i st2 v cr h2
        simp only [Except.ok.injEq, Prod.mk.injEq] at h
        obtain ⟨rfl, _⟩ := h
        exact hR.trans (hs _ _ _ _ h1) (hs _ _ _ _ h2)
      · rename_i st2 cr h2
        simp only [Except.ok.injEq, Prod.mk.injEq] at h
        obtain ⟨rfl, _⟩ := h
        exact hR.trans (hs _ _ _ _ h1) (hR.trans (hs _ _ _ _ h2) (hR.mark _ _))
    · rename_i st1 h1
      simp only [Except.ok.injEq, Prod.mk.injEq] at h
      obtain ⟨rfl, _⟩ := h
      exact hs _ _ _ _ h1
    · rename_i st1 h1
      exact hR.trans (hs _ _ _ _ h1) (hR.trans (hR.endIteration _)
        (Kept.whileLoop hR hs fuel _ _ _ h))

theorem assignSignal_ok {s : Nat} {st st' : St} (h : assignSignal s st = .ok st') :
    ∃ a, assignCell (st.sigs s) (pendingState st.conds) = .ok a ∧ st' = { st with
      sigs := fun t => if t = s then a else st.sigs t
      log := st.log ++ [(s, st.conds)] } := by
  unfold assignSignal at h
  split at h
  · cases h
  · rename_i a ha
    injection h with h
    exact ⟨a, ha, h.symm⟩

theorem addEquality_ok {l r : V} {field : Int} {st st' : St} (h : addEquality l r field st = .ok st') :
    ∃ d k, Algebra.sub l r field = .ok d ∧ toConstraint d field = some k ∧
      st' = { st with cons := st.cons ++ [k] } := by
  unfold addEquality at h
  split at h
  · cases h
  · rename_i d hd
    split at h
    · cases h
    · rename_i k hk
      injection h with h
      exact ⟨d, k, hd, hk, h.symm⟩

theorem Kept.exec {R : St → St → Prop} (hR : Kept R) (fuel : Nat) (field : Int) :
    ∀ (s : Stmt) (st st' : St) (r : Option V), exec fuel field s st = .ok (st', r) → R st st'
  | .skip, st, st', r, h => by
    simp only [Exec.exec, Except.ok.injEq, Prod.mk.injEq] at h
    obtain ⟨rfl, _⟩ := h; exact hR.refl _
  | .decl x, st, st', r, h => by
    simp only [Exec.exec] at h
    split at h
    · cases h
    · simp only [Except.ok.injEq, Prod.mk.injEq] at h
      obtain ⟨rfl, _⟩ := h; exact hR.env _ _
  | .assign x e, st, st', r, h => by
    simp only [Exec.exec] at h
    split at h
    · cases h
    · split at h
      · cases h
      · simp only [Except.ok.injEq, Prod.mk.injEq] at h
        obtain ⟨rfl, _⟩ := h; exact hR.env _ _
  | .sassign s e, st, st', r, h => by
    simp only [Exec.exec] at h
    split at h
    · cases h
    · split at h
      · cases h
      · rename_i st1 h1
        simp only [Except.ok.injEq, Prod.mk.injEq] at h
        obtain ⟨rfl, _⟩ := h
        obtain ⟨a, ha, rfl⟩ := assignSignal_ok h1
        exact hR.assign _ _ _ ha
  | .cassign s e, st, st', r, h => by
    simp only [Exec.exec] at h
    split at h
    · cases h
    · split at h
      · cases h
      · rename_i st1 h1
        obtain ⟨a, ha, rfl⟩ := assignSignal_ok h1
        split at h
        · cases h
        · split at h
          · cases h
          · split at h
            · cases h
            · rename_i st2 h2
              simp only [Except.ok.injEq, Prod.mk.injEq] at h
              obtain ⟨rfl, _⟩ := h
              obtain ⟨d, k, _, _, rfl⟩ := addEquality_ok h2
              exact hR.trans (hR.assign st s a ha) (hR.cons _ _)
  | .check l r, st, st', r', h => by
    simp only [Exec.exec] at h
    split at h
    · cases h
    · split at h
      · cases h
      · split at h
        · cases h
        · split at h
          · cases h
          · rename_i st2 h2
            simp only [Except.ok.injEq, Prod.mk.injEq] at h
            obtain ⟨rfl, _⟩ := h
            obtain ⟨d, k, _, _, rfl⟩ := addEquality_ok h2
            exact hR.cons _ _
  | .seq a b, st, st', r, h => by
    simp only [Exec.exec] at h
    split at h
    · cases h
    · rename_i st1 v h1
      simp only [Except.ok.injEq, Prod.mk.injEq] at h
      obtain ⟨rfl, _⟩ := h
      exact Kept.exec hR fuel field a _ _ _ h1
    · rename_i st1 h1
      exact hR.trans (Kept.exec hR fuel field a _ _ _ h1) (Kept.exec hR fuel field b _ _ _ h)
  | .ifte c t none, st, st', r, h => by
    simp only [Exec.exec] at h
    split at h
    · cases h
    · rename_i st1 r1 cr h1
      simp only [Except.ok.injEq, Prod.mk.injEq] at h
      obtain ⟨rfl, rfl⟩ := h
      exact hR.conditional (Kept.exec hR fuel field t) (by intro f hf; cases hf) h1
  | .ifte c t (some e), st, st', r, h => by
    simp only [Exec.exec] at h
    split at h
    · cases h
    · rename_i st1 r1 cr h1
      simp only [Except.ok.injEq, Prod.mk.injEq] at h
      obtain ⟨rfl, rfl⟩ := h
      exact hR.conditional (Kept.exec hR fuel field t)
        (by intro f hf; injection hf with hf; subst hf; exact Kept.exec hR fuel field e) h1
  | .while c b, st, st', r, h => by
    simp only [Exec.exec] at h
    exact hR.trans (hR.startLoop st) (hR.whileLoop
      (fun _ _ _ _ h => hR.conditional (Kept.exec hR fuel field b) (by intro f hf; cases hf) h)
      fuel _ _ _ h)
  | .block b, st, st', r, h => by
    simp only [Exec.exec] at h
    split at h
    · cases h
    · rename_i st1 r1 h1
      simp only [Except.ok.injEq, Prod.mk.injEq] at h
      obtain ⟨rfl, _⟩ := h
      exact hR.trans (hR.env st _) (hR.trans (Kept.exec hR fuel field b _ _ _ h1) (hR.env _ _))
  | .ret e, st, st', r, h => by
    simp only [Exec.exec] at h
    split at h
    · cases h
    · simp only [Except.ok.injEq, Prod.mk.injEq] at h
      obtain ⟨rfl, _⟩ := h; exact hR.refl _

/-- All condition numbers of a list are below `n`. -/
def Below (n : Nat) (cs : List (Nat × Bool)) : Prop := ∀ x ∈ cs, x.1 < n

theorem Below.mono {m n : Nat} {cs : List (Nat × Bool)} (h : Below m cs) (hmn : m ≤ n) : Below n cs :=
  fun x hx => lt_of_lt_of_le (h x hx) hmn

/-- Facts about any execution. -/
structure Facts (st st' : St) : Prop where
  counter : st.counter ≤ st'.counter
  unstable : st.unstable = true → st'.unstable = true
  loop : st.loopInUnknown = true → st'.loopInUnknown = true
  below : Below st.counter st.conds → Below st'.counter st'.conds
  log : ∃ new, st'.log = st.log ++ new ∧
    (Below st.counter st.conds → ∀ e ∈ new, Below st'.counter e.2)

theorem below_push {n : Nat} {cs : List (Nat × Bool)} (h : Below n cs) (b : Bool) :
    Below (n + 1) (cs ++ [(n, b)]) := by
  intro x hx
  rcases List.mem_append.1 hx with hx | hx
  · exact Nat.lt_succ_of_lt (h x hx)
  · rw [List.mem_singleton.1 hx]; exact Nat.lt_succ_self n

theorem below_dropLast {n : Nat} {cs : List (Nat × Bool)} (h : Below n cs) : Below n cs.dropLast :=
  fun x hx => h x (List.dropLast_subset _ hx)

theorem kept_facts : Kept Facts where
  refl st := ⟨le_refl _, id, id, id, [], by simp, by simp⟩
  trans := by
    rintro a b c ⟨h1, h2, h3, h4, n1, h5, h6⟩ ⟨g1, g2, g3, g4, n2, g5, g6⟩
    refine ⟨le_trans h1 g1, g2 ∘ h2, g3 ∘ h3, g4 ∘ h4, n1 ++ n2, by rw [g5, h5, List.append_assoc], ?_⟩
    intro hb e he
    rcases List.mem_append.1 he with he | he
    · exact (h6 hb e he).mono g1
    · exact g6 (h4 hb) e he
  enter st := ⟨Nat.le_succ _, id, id, fun h => below_push h _, [], by simp [enter], by simp⟩
  flip st last hl := by
    refine ⟨le_refl _, id, id, ?_, [], by simp [flip], by simp⟩
    intro h x hx
    rcases List.mem_append.1 hx with hx | hx
    · exact below_dropLast h x hx
    · rw [List.mem_singleton.1 hx]
      exact h last (List.mem_of_getLast? hl)
  leave old st := ⟨le_refl _, id, id, below_dropLast, [], by simp [leave], by simp⟩
  startLoop st := ⟨Nat.le_succ _, id, by intro h; simp [startLoop, h], fun h => below_push h _, [],
    by simp [startLoop], by simp⟩
  endIteration st := ⟨le_refl _, id, id, below_dropLast, [], by simp [endIteration], by simp⟩
  mark step st := by
    have : (markUnstable step st).counter = st.counter ∧ (markUnstable step st).conds = st.conds ∧
        (markUnstable step st).log = st.log ∧
        (st.unstable = true → (markUnstable step st).unstable = true) ∧
        (st.loopInUnknown = true → (markUnstable step st).loopInUnknown = true) := by
      unfold markUnstable
      split
      · refine ⟨rfl, rfl, rfl, ?_, ?_⟩ <;> intro h <;> simp [h]
      · exact ⟨rfl, rfl, rfl, fun _ => rfl, id⟩
    obtain ⟨h1, h2, h3, h4, h5⟩ := this
    refine ⟨by rw [h1], h4, h5, by rw [h1, h2]; exact id, [], by simp [h3], by simp⟩
  env st env := ⟨le_refl _, id, id, id, [], by simp, by simp⟩
  cons st cons := ⟨le_refl _, id, id, id, [], by simp, by simp⟩
  assign st s a _ := ⟨le_refl _, id, id, id, [(s, st.conds)], rfl, by
    intro h e he
    rw [List.mem_singleton.1 he]
    exact h⟩

theorem exec_facts {fuel : Nat} {field : Int} {s : Stmt} {st st' : St} {r : Option V}
    (h : exec fuel field s st = .ok (st', r)) : Facts st st' := kept_facts.exec fuel field s st st' r h

theorem Facts.unstable_false {st st' : St} (h : Facts st st') (hf : st'.unstable = false) :
    st.unstable = false := by
  cases hu : st.unstable
  · rfl
  · rw [h.unstable hu] at hf; cases hf

theorem Facts.loop_false {st st' : St} (h : Facts st st') (hf : st'.loopInUnknown = false) :
    st.loopInUnknown = false := by
  cases hu : st.loopInUnknown
  · rfl
  · rw [h.loop hu] at hf; cases hf

theorem markUnstable_fields (step : St → Ex (St × Option V × Option Bool)) (st : St) :
    (markUnstable step st).env = st.env ∧ (markUnstable step st).unknown = st.unknown ∧
    (markUnstable step st).conds = st.conds ∧ (markUnstable step st).counter = st.counter ∧
    (markUnstable step st).sigs = st.sigs ∧ (markUnstable step st).cons = st.cons ∧
    (markUnstable step st).log = st.log := by
  unfold markUnstable
  split <;> exact ⟨rfl, rfl, rfl, rfl, rfl, rfl, rfl⟩

/-! ### The kind of the current block is restored -/

theorem conditional_unknown {field : Int} {c : Expr}
    {t : St → Ex (St × Option V)} {e : Option (St → Ex (St × Option V))}
    (ht : ∀ st st' r, t st = .ok (st', r) → st'.unknown = st.unknown)
    (he : ∀ f, e = some f → ∀ st st' r, f st = .ok (st', r) → st'.unknown = st.unknown)
    {st st' : St} {r : Option V} {cr : Option Bool}
    (h : conditional field c t e st = .ok (st', r, cr)) : st'.unknown = st.unknown := by
  obtain ⟨vc, _, hc⟩ := conditional_cases h
  clear h
  rcases hc with ⟨_, _, h⟩ | ⟨_, _, _, rfl, _⟩ | ⟨f, _, _, hf, h⟩ | ⟨_, _, _, st1, h, rfl⟩ |
    ⟨f, st1, r1, last, st2, r2, _, _, hf, h1, hl, h2, rfl, _⟩
  · exact ht _ _ _ h
  · rfl
  · exact he f hf _ _ _ h
  · rfl
  · rfl

theorem whileLoop_unknown {step : St → Ex (St × Option V × Option Bool)}
    (hs : ∀ st st' r cr, step st = .ok (st', r, cr) → st'.unknown = st.unknown) :
    ∀ (fuel : Nat) (st st' : St) (r : Option V), whileLoop step fuel st = .ok (st', r) →
      st'.unknown = st.unknown
  | 0, st, st', r, h => by simp [Exec.whileLoop] at h
  | fuel + 1, st, st', r, h => by
    rw [whileLoop] at h
    split at h
    · cases h
    · rename_i st1 v cr h1
      simp only [Except.ok.injEq, Prod.mk.injEq] at h
      obtain ⟨rfl, _⟩ := h
      exact hs _ _ _ _ h1
    · rename_i st1 h1
      split at h
      · cases h
      · rename_i st2 v cr h2
        simp only [Except.ok.injEq, Prod.mk.injEq] at h
        obtain ⟨rfl, _⟩ := h
        rw [hs _ _ _ _ h2, hs _ _ _ _ h1]
      · rename_i st2 cr h2
        simp only [Except.ok.injEq, Prod.mk.injEq] at h
        obtain ⟨rfl, _⟩ := h
        rw [(markUnstable_fields step st2).2.1, hs _ _ _ _ h2, hs _ _ _ _ h1]
    · rename_i st1 h1
      simp only [Except.ok.injEq, Prod.mk.injEq] at h
      obtain ⟨rfl, _⟩ := h
      exact hs _ _ _ _ h1
    · rename_i st1 h1
      rw [whileLoop_unknown hs fuel _ _ _ h]
      have := hs _ _ _ _ h1
      exact this

theorem exec_unknown (fuel : Nat) (field : Int) :
    ∀ (s : Stmt) (st st' : St) (r : Option V), exec fuel field s st = .ok (st', r) →
      st'.unknown = st.unknown
  | .skip, st, st', r, h => by
    simp only [exec, Except.ok.injEq, Prod.mk.injEq] at h
    obtain ⟨rfl, _⟩ := h; rfl
  | .decl x, st, st', r, h => by
    simp only [exec] at h
    split at h
    · cases h
    · simp only [Except.ok.injEq, Prod.mk.injEq] at h
      obtain ⟨rfl, _⟩ := h; rfl
  | .assign x e, st, st', r, h => by
    simp only [exec] at h
    split at h
    · cases h
    · split at h
      · cases h
      · simp only [Except.ok.injEq, Prod.mk.injEq] at h
        obtain ⟨rfl, _⟩ := h; rfl
  | .sassign s e, st, st', r, h => by
    simp only [exec] at h
    split at h
    · cases h
    · split at h
      · cases h
      · rename_i st1 h1
        simp only [Except.ok.injEq, Prod.mk.injEq] at h
        obtain ⟨rfl, _⟩ := h
        obtain ⟨a, _, rfl⟩ := assignSignal_ok h1
        rfl
  | .cassign s e, st, st', r, h => by
    simp only [exec] at h
    split at h
    · cases h
    · split at h
      · cases h
      · rename_i st1 h1
        obtain ⟨a, _, rfl⟩ := assignSignal_ok h1
        split at h
        · cases h
        · split at h
          · cases h
          · split at h
            · cases h
            · rename_i st2 h2
              simp only [Except.ok.injEq, Prod.mk.injEq] at h
              obtain ⟨rfl, _⟩ := h
              obtain ⟨d, k, _, _, rfl⟩ := addEquality_ok h2
              rfl
  | .check l r, st, st', r', h => by
    simp only [exec] at h
    split at h
    · cases h
    · split at h
      · cases h
      · split at h
        · cases h
        · split at h
          · cases h
          · rename_i st2 h2
            simp only [Except.ok.injEq, Prod.mk.injEq] at h
            obtain ⟨rfl, _⟩ := h
            obtain ⟨d, k, _, _, rfl⟩ := addEquality_ok h2
            rfl
  | .seq a b, st, st', r, h => by
    simp only [exec] at h
    split at h
    · cases h
    · rename_i st1 v h1
      simp only [Except.ok.injEq, Prod.mk.injEq] at h
      obtain ⟨rfl, _⟩ := h
      exact exec_unknown fuel field a _ _ _ h1
    · rename_i st1 h1
      rw [exec_unknown fuel field b _ _ _ h, exec_unknown fuel field a _ _ _ h1]
  | .ifte c t none, st, st', r, h => by
    simp only [exec] at h
    split at h
    · cases h
    · rename_i st1 r1 cr h1
      simp only [Except.ok.injEq, Prod.mk.injEq] at h
      obtain ⟨rfl, rfl⟩ := h
      exact conditional_unknown (exec_unknown fuel field t) (by intro f hf; cases hf) h1
  | .ifte c t (some e), st, st', r, h => by
    simp only [exec] at h
    split at h
    · cases h
    · rename_i st1 r1 cr h1
      simp only [Except.ok.injEq, Prod.mk.injEq] at h
      obtain ⟨rfl, rfl⟩ := h
      exact conditional_unknown (exec_unknown fuel field t)
        (by intro f hf; injection hf with hf; subst hf; exact exec_unknown fuel field e) h1
  | .while c b, st, st', r, h => by
    simp only [exec] at h
    have := whileLoop_unknown (step := conditional field c (exec fuel field b) none)
      (fun _ _ _ _ h => conditional_unknown (e := none) (exec_unknown fuel field b) (by intro f hf; cases hf) h)
      fuel _ _ _ h
    exact this
  | .block b, st, st', r, h => by
    simp only [exec] at h
    split at h
    · cases h
    · rename_i st1 r1 h1
      simp only [Except.ok.injEq, Prod.mk.injEq] at h
      obtain ⟨rfl, _⟩ := h
      have := exec_unknown fuel field b _ _ _ h1
      exact this
  | .ret e, st, st', r, h => by
    simp only [exec] at h
    split at h
    · cases h
    · simp only [Except.ok.injEq, Prod.mk.injEq] at h
      obtain ⟨rfl, _⟩ := h; rfl

end Verif.Exec
