import Verif.ExecSteps

/-!
Executions inside branches of unknown conditions: variables only lose their value, no constraint is
generated, and (without loops) the pending conditions are restored and contained in all assignments.
-/

set_option linter.unusedSectionVars false
set_option linter.unusedSimpArgs false

namespace Verif.Exec

open Verif.ModArith Verif.Algebra

/-- The second environment arises from the first by forgetting some values. -/
def SmE : List (List (Nat × V)) → List (List (Nat × V)) → Prop :=
  List.Forall₂ (List.Forall₂ fun a b => a.1 = b.1 ∧ (b.2 = a.2 ∨ b.2 = .nonQuadratic))

theorem SmE.refl (A : List (List (Nat × V))) : SmE A A :=
  List.forall₂_same.2 fun _ _ => List.forall₂_same.2 fun _ _ => ⟨rfl, .inl rfl⟩

theorem forall₂_trans {α : Type} {R : α → α → Prop} (hR : ∀ a b c, R a b → R b c → R a c) :
    ∀ {x y z : List α}, List.Forall₂ R x y → List.Forall₂ R y z → List.Forall₂ R x z
  | _, _, _, .nil, .nil => .nil
  | _, _, _, .cons h1 h2, .cons g1 g2 => .cons (hR _ _ _ h1 g1) (forall₂_trans hR h2 g2)

theorem SmE.trans {A B C : List (List (Nat × V))} (h1 : SmE A B) (h2 : SmE B C) : SmE A C :=
  forall₂_trans (fun _ _ _ => forall₂_trans (by
    rintro a b c ⟨h1, h2⟩ ⟨g1, g2⟩
    refine ⟨h1.trans g1, ?_⟩
    rcases g2 with g2 | g2
    · rw [g2]; exact h2
    · exact .inr g2)) h1 h2

theorem SmE.tail {A B : List (List (Nat × V))} (h : SmE A B) : SmE A.tail B.tail := by
  cases h with
  | nil => exact .nil
  | cons _ h => exact h

theorem rel_smash {p : Nat} {ρ : Nat → ZMod p} {A B : List (List (Nat × V))} {c : CEnv}
    (h : RelE p ρ A c) (hs : SmE A B) : RelE p ρ B c := by
  induction h generalizing B with
  | nil => cases hs; exact .nil
  | @cons a d A c had _ ih =>
    cases hs with
    | @cons _ b _ B hab hAB =>
      refine .cons ?_ (ih hAB)
      clear ih hAB
      induction had generalizing b with
      | nil => cases hab; exact .nil
      | @cons x y a d hxy _ ih =>
        cases hab with
        | @cons _ z _ b hxz hab =>
          refine .cons ⟨hxz.1.symm.trans hxy.1, ?_⟩ (ih hab)
          rcases hxz.2 with h | h
          · rw [h]; exact hxy.2
          · rw [h]; exact RelV.nonQuadratic hxy.2.canon

theorem blockSet_smash {b b' : List (Nat × V)} {x : Nat} (h : blockSet b x .nonQuadratic = some b') :
    List.Forall₂ (fun a b => a.1 = b.1 ∧ (b.2 = a.2 ∨ b.2 = (.nonQuadratic : V))) b b' := by
  induction b generalizing b' with
  | nil => simp [blockSet] at h
  | cons a b ih =>
    obtain ⟨y, v⟩ := a
    simp only [blockSet] at h
    split at h
    · injection h with h
      subst h
      exact .cons ⟨rfl, .inr rfl⟩ (List.forall₂_same.2 fun _ _ => ⟨rfl, .inl rfl⟩)
    · cases hb : blockSet b x .nonQuadratic with
      | none => rw [hb] at h; cases h
      | some b'' =>
        rw [hb] at h
        injection h with h
        subst h
        exact .cons ⟨rfl, .inl rfl⟩ (ih hb)

theorem envSet_smash {A A' : List (List (Nat × V))} {x : Nat} (h : envSet A x .nonQuadratic = some A') :
    SmE A A' := by
  induction A generalizing A' with
  | nil => simp [envSet] at h
  | cons b A ih =>
    simp only [envSet] at h
    split at h
    · rename_i b' hb
      injection h with h
      subst h
      exact .cons (blockSet_smash hb) (SmE.refl A)
    · cases hA : envSet A x .nonQuadratic with
      | none => rw [hA] at h; cases h
      | some A'' =>
        rw [hA] at h
        injection h with h
        subst h
        exact .cons (List.forall₂_same.2 fun _ _ => ⟨rfl, .inl rfl⟩) (ih hA)

/-! ### Known conditions stay known only with the same value -/

theorem getBool_some {v : V} {f : Int} {b : Bool} (h : getBool v f = some b) : ∃ n, v = .number n := by
  cases v <;> simp only [getBool] at h <;> first | exact ⟨_, rfl⟩ | cases h

theorem eval_mono {field : Int} {sigs sigs' : Nat → AState} {A B : List (List (Nat × V))}
    (hs : SmE A B) (e : Expr) {a b : V} (ha : eval field sigs A e = .ok a)
    (hb : eval field sigs' B e = .ok b) {n : Int} (hn : b = .number n) : a = .number n := by
  induction e generalizing a b n with
  | num v =>
    simp only [eval, Except.ok.injEq] at ha hb
    rw [← ha, hb, hn]
  | var x =>
    simp only [eval] at ha hb
    rcases envGet_rel (R := fun a b : V => b = a ∨ b = .nonQuadratic) hs x with ⟨g1, _⟩ | ⟨v, u, g1, g2, g3⟩
    · rw [g1] at ha; cases ha
    · rw [g1] at ha; rw [g2] at hb
      injection ha with ha; injection hb with hb
      subst ha; subst hb
      rcases g3 with g3 | g3
      · rw [← g3, hn]
      · rw [g3] at hn; cases hn
  | sig s =>
    simp only [eval] at hb
    split at hb
    · cases hb
    · injection hb with hb; rw [← hb] at hn; cases hn
  | bin op l r ihl ihr =>
    simp only [eval] at ha hb
    cases hl : eval field sigs A l with
    | error x => rw [hl] at ha; cases ha
    | ok vl =>
      cases hr : eval field sigs A r with
      | error x => rw [hl, hr] at ha; cases ha
      | ok vr =>
        rw [hl, hr] at ha
        simp only at ha
        cases hl' : eval field sigs' B l with
        | error x => rw [hl'] at hb; cases hb
        | ok ul =>
          cases hr' : eval field sigs' B r with
          | error x => rw [hl', hr'] at hb; cases hb
          | ok ur =>
            rw [hl', hr'] at hb
            simp only at hb
            cases ho : applyOp op ul ur field with
            | error x => rw [ho] at hb; cases hb
            | ok u =>
              rw [ho] at hb
              injection hb with hb
              subst hb; subst hn
              obtain ⟨x, y, h1, h2⟩ := applyOp_number op ho
              rw [ihl hl hl' h1, ihr hr hr' h2, ← h1, ← h2, ho] at ha
              injection ha with ha
              exact ha.symm
  | un op e ih =>
    simp only [eval] at ha hb
    cases hl : eval field sigs A e with
    | error x => rw [hl] at ha; cases ha
    | ok v =>
      cases hl' : eval field sigs' B e with
      | error x => rw [hl'] at hb; cases hb
      | ok u =>
        rw [hl] at ha; rw [hl'] at hb
        injection ha with ha; injection hb with hb
        subst ha; subst hb
        have : ∃ m, u = .number m := by
          cases op
          · cases u <;> simp only [applyUOp, numOp1] at hn <;> first | exact ⟨_, rfl⟩ | cases hn
          · obtain ⟨x, _, h, _⟩ := mul_number hn
            exact ⟨x, h⟩
          · cases u <;> simp only [applyUOp, numOp1] at hn <;> first | exact ⟨_, rfl⟩ | cases hn
        obtain ⟨m, hm⟩ := this
        rw [ih hl hl' hm, ← hm, hn]
  | ite c x y ihc ihx ihy =>
    simp only [eval] at ha hb
    cases hl : eval field sigs A c with
    | error x => rw [hl] at ha; cases ha
    | ok v =>
      cases hl' : eval field sigs' B c with
      | error x => rw [hl'] at hb; cases hb
      | ok u =>
        rw [hl] at ha; rw [hl'] at hb
        simp only at ha hb
        cases hg : getBool u field with
        | none =>
          rw [hg] at hb
          injection hb with hb
          rw [← hb] at hn; cases hn
        | some q =>
          obtain ⟨m, hm⟩ := getBool_some hg
          rw [ihc hl hl' hm, ← hm, hg] at ha
          rw [hg] at hb
          cases q
          · exact ihy ha hb hn
          · exact ihx ha hb hn

theorem getBool_mono {field : Int} {sigs sigs' : Nat → AState} {A B : List (List (Nat × V))}
    (hs : SmE A B) (e : Expr) {a b : V} (ha : eval field sigs A e = .ok a)
    (hb : eval field sigs' B e = .ok b) (hn : getBool a field = none) : getBool b field = none := by
  cases hg : getBool b field with
  | none => rfl
  | some q =>
    obtain ⟨m, hm⟩ := getBool_some hg
    have := eval_mono hs e ha hb hm
    rw [this, ← hm, hg] at hn
    cases hn

/-! ### Unknown blocks -/

/-- Effect of an execution in an unknown block; `b` says whether declarations were possible. -/
def Forgets (b : Bool) (st st' : St) : Prop :=
  (if b then SmE st.env.tail st'.env.tail else SmE st.env st'.env) ∧ st'.cons = st.cons

theorem Forgets.of {b : Bool} {st st' : St} (h : SmE st.env st'.env) (hc : st'.cons = st.cons) :
    Forgets b st st' := by
  cases b
  · exact ⟨h, hc⟩
  · exact ⟨h.tail, hc⟩

theorem Forgets.trans {b : Bool} {x y z : St} (h1 : Forgets b x y) (h2 : Forgets b y z) :
    Forgets b x z := by
  cases b
  · exact ⟨SmE.trans h1.1 h2.1, h2.2.trans h1.2⟩
  · exact ⟨SmE.trans h1.1 h2.1, h2.2.trans h1.2⟩

/-- All branch executions forget. -/
def AllForget (t : St → Ex (St × Option V)) : Prop :=
  ∀ st st' r, st.unknown = true → t st = .ok (st', r) →
    Forgets false st st' ∧ (∀ v, r = some v → v = .nonQuadratic) ∧ st'.unknown = true

theorem or_nonQuadratic {r1 r2 : Option V} (h1 : ∀ v, r1 = some v → v = .nonQuadratic)
    (h2 : ∀ v, r2 = some v → v = .nonQuadratic) : ∀ v, r1.or r2 = some v → v = .nonQuadratic := by
  intro v hv
  cases r1 with
  | none => exact h2 v (by simpa using hv)
  | some x => exact h1 v (by simpa using hv)

/-- A conditional with unknown condition forgets, whatever the surrounding block. -/
theorem conditional_forgets_unknown {field : Int} {c : Expr}
    {t : St → Ex (St × Option V)} {e : Option (St → Ex (St × Option V))}
    (ht : AllForget t) (he : ∀ f, e = some f → AllForget f)
    {st st' : St} {r : Option V}
    (h : conditional field c t e st = .ok (st', r, none)) :
    Forgets false st st' ∧ ∀ v, r = some v → v = .nonQuadratic := by
  obtain ⟨vc, _, hc⟩ := conditional_cases h
  clear h
  rcases hc with ⟨_, h, _⟩ | ⟨_, h, _⟩ | ⟨f, _, h, _⟩ | ⟨_, _, _, st1, h, rfl⟩ |
    ⟨f, st1, r1, last, st2, r2, _, _, hf, h1, hl, h2, rfl, rfl⟩
  · cases h
  · cases h
  · cases h
  · obtain ⟨g1, g2, _⟩ := ht _ _ _ rfl h
    exact ⟨g1, g2⟩
  · obtain ⟨g1, g2, g3⟩ := ht _ _ _ rfl h1
    obtain ⟨k1, k2, _⟩ := he f hf _ _ _ (by exact g3) h2
    exact ⟨⟨SmE.trans g1.1 k1.1, k1.2.trans g1.2⟩, or_nonQuadratic g2 k2⟩

theorem conditional_forgets {field : Int} {c : Expr}
    {t : St → Ex (St × Option V)} {e : Option (St → Ex (St × Option V))}
    (ht : AllForget t) (he : ∀ f, e = some f → AllForget f)
    {st st' : St} {r : Option V} {cr : Option Bool} (hu : st.unknown = true)
    (h : conditional field c t e st = .ok (st', r, cr)) :
    Forgets false st st' ∧ ∀ v, r = some v → v = .nonQuadratic := by
  cases cr with
  | none => exact conditional_forgets_unknown ht he h
  | some q =>
    obtain ⟨vc, _, hc⟩ := conditional_cases h
    clear h
    rcases hc with ⟨_, _, h⟩ | ⟨_, _, _, rfl, rfl⟩ | ⟨f, _, _, hf, h⟩ | ⟨_, h, _⟩ |
      ⟨f, st1, r1, last, st2, r2, _, h, _⟩
    · obtain ⟨g1, g2, _⟩ := ht _ _ _ hu h
      exact ⟨g1, g2⟩
    · exact ⟨⟨SmE.refl _, rfl⟩, by intro v hv; cases hv⟩
    · obtain ⟨g1, g2, _⟩ := he f hf _ _ _ hu h
      exact ⟨g1, g2⟩
    · cases h
    · cases h

theorem whileLoop_forgets {step : St → Ex (St × Option V × Option Bool)}
    (hs : ∀ st st' r cr, st.unknown = true → step st = .ok (st', r, cr) →
      Forgets false st st' ∧ (∀ v, r = some v → v = .nonQuadratic) ∧ st'.unknown = true) :
    ∀ (fuel : Nat) (st st' : St) (r : Option V), st.unknown = true →
      whileLoop step fuel st = .ok (st', r) →
      Forgets false st st' ∧ (∀ v, r = some v → v = .nonQuadratic)
  | 0, st, st', r, hu, h => by simp [whileLoop] at h
  | fuel + 1, st, st', r, hu, h => by
    rw [whileLoop] at h
    split at h
    · cases h
    · rename_i st1 v cr h1
      simp only [Except.ok.injEq, Prod.mk.injEq] at h
      obtain ⟨rfl, rfl⟩ := h
      obtain ⟨g1, g2, _⟩ := hs _ _ _ _ hu h1
      exact ⟨g1, g2⟩
    · rename_i st1 h1
      obtain ⟨g1, g2, g3⟩ := hs _ _ _ _ hu h1
      split at h
      · cases h
      · rename_i st2 v cr h2
        simp only [Except.ok.injEq, Prod.mk.injEq] at h
        obtain ⟨rfl, rfl⟩ := h
        obtain ⟨k1, k2, _⟩ := hs _ _ _ _ g3 h2
        exact ⟨g1.trans k1, k2⟩
      · rename_i st2 cr h2
        simp only [Except.ok.injEq, Prod.mk.injEq] at h
        obtain ⟨rfl, rfl⟩ := h
        obtain ⟨k1, k2, _⟩ := hs _ _ _ _ g3 h2
        obtain ⟨m1, _, _, _, _, m2, _⟩ := markUnstable_fields step st2
        refine ⟨g1.trans (k1.trans (Forgets.of ?_ m2)), by intro v hv; cases hv⟩
        rw [m1]; exact SmE.refl _
    · rename_i st1 h1
      simp only [Except.ok.injEq, Prod.mk.injEq] at h
      obtain ⟨rfl, rfl⟩ := h
      obtain ⟨g1, g2, _⟩ := hs _ _ _ _ hu h1
      exact ⟨g1, g2⟩
    · rename_i st1 h1
      obtain ⟨g1, g2, g3⟩ := hs _ _ _ _ hu h1
      obtain ⟨k1, k2⟩ := whileLoop_forgets hs fuel (endIteration st1) _ _ g3 h
      exact ⟨g1.trans (Forgets.trans (Forgets.of (SmE.refl _) rfl) k1), k2⟩

theorem exec_forgets (fuel : Nat) (field : Int) :
    ∀ (s : Stmt) (b : Bool) (st st' : St) (r : Option V), s.Scoped b → st.unknown = true →
      exec fuel field s st = .ok (st', r) →
      Forgets b st st' ∧ ∀ v, r = some v → v = .nonQuadratic
  | .skip, b, st, st', r, hsc, hu, h => by
    simp only [exec, Except.ok.injEq, Prod.mk.injEq] at h
    obtain ⟨rfl, rfl⟩ := h
    exact ⟨Forgets.of (SmE.refl _) rfl, by intro v hv; cases hv⟩
  | .decl x, b, st, st', r, hsc, hu, h => by
    simp only [exec] at h
    split at h
    · cases h
    · rename_i env henv
      simp only [Except.ok.injEq, Prod.mk.injEq] at h
      obtain ⟨rfl, rfl⟩ := h
      simp only [Stmt.Scoped] at hsc
      subst hsc
      refine ⟨⟨?_, rfl⟩, by intro v hv; cases hv⟩
      cases hst : st.env with
      | nil => rw [hst] at henv; simp [envAdd] at henv
      | cons f fs =>
        rw [hst] at henv
        simp only [envAdd, Option.some.injEq] at henv
        subst henv
        exact SmE.refl _
  | .assign x e, b, st, st', r, hsc, hu, h => by
    simp only [exec, hu, if_true] at h
    split at h
    · cases h
    · split at h
      · cases h
      · rename_i env henv
        simp only [Except.ok.injEq, Prod.mk.injEq] at h
        obtain ⟨rfl, rfl⟩ := h
        exact ⟨Forgets.of (envSet_smash henv) rfl, by intro v hv; cases hv⟩
  | .sassign s e, b, st, st', r, hsc, hu, h => by
    simp only [exec] at h
    split at h
    · cases h
    · split at h
      · cases h
      · rename_i st1 h1
        simp only [Except.ok.injEq, Prod.mk.injEq] at h
        obtain ⟨rfl, rfl⟩ := h
        obtain ⟨a, _, rfl⟩ := assignSignal_ok h1
        exact ⟨Forgets.of (SmE.refl _) rfl, by intro v hv; cases hv⟩
  | .cassign s e, b, st, st', r, hsc, hu, h => by
    simp only [exec, hu, if_true] at h
    split at h
    · cases h
    · split at h <;> cases h
  | .check l r, b, st, st', r', hsc, hu, h => by
    simp only [exec, hu, if_true] at h
    cases h
  | .seq x y, b, st, st', r, hsc, hu, h => by
    simp only [exec] at h
    split at h
    · cases h
    · rename_i st1 v h1
      simp only [Except.ok.injEq, Prod.mk.injEq] at h
      obtain ⟨rfl, rfl⟩ := h
      exact exec_forgets fuel field x b _ _ _ hsc.1 hu h1
    · rename_i st1 h1
      obtain ⟨g1, g2⟩ := exec_forgets fuel field x b _ _ _ hsc.1 hu h1
      have hu1 : st1.unknown = true := by rw [exec_unknown fuel field x _ _ _ h1]; exact hu
      obtain ⟨k1, k2⟩ := exec_forgets fuel field y b _ _ _ hsc.2 hu1 h
      exact ⟨g1.trans k1, k2⟩
  | .ifte c t none, b, st, st', r, hsc, hu, h => by
    simp only [exec] at h
    split at h
    · cases h
    · rename_i st1 r1 cr h1
      simp only [Except.ok.injEq, Prod.mk.injEq] at h
      obtain ⟨rfl, rfl⟩ := h
      have ht : AllForget (exec fuel field t) := fun st st' r hu h =>
        ⟨(exec_forgets fuel field t false _ _ _ hsc hu h).1,
          (exec_forgets fuel field t false _ _ _ hsc hu h).2,
          by rw [exec_unknown fuel field t _ _ _ h]; exact hu⟩
      obtain ⟨g1, g2⟩ := conditional_forgets ht (by intro f hf; cases hf) hu h1
      exact ⟨Forgets.of g1.1 g1.2, g2⟩
  | .ifte c t (some e), b, st, st', r, hsc, hu, h => by
    simp only [exec] at h
    split at h
    · cases h
    · rename_i st1 r1 cr h1
      simp only [Except.ok.injEq, Prod.mk.injEq] at h
      obtain ⟨rfl, rfl⟩ := h
      have ht : AllForget (exec fuel field t) := fun st st' r hu h =>
        ⟨(exec_forgets fuel field t false _ _ _ hsc.1 hu h).1,
          (exec_forgets fuel field t false _ _ _ hsc.1 hu h).2,
          by rw [exec_unknown fuel field t _ _ _ h]; exact hu⟩
      have he : AllForget (exec fuel field e) := fun st st' r hu h =>
        ⟨(exec_forgets fuel field e false _ _ _ hsc.2 hu h).1,
          (exec_forgets fuel field e false _ _ _ hsc.2 hu h).2,
          by rw [exec_unknown fuel field e _ _ _ h]; exact hu⟩
      obtain ⟨g1, g2⟩ := conditional_forgets ht
        (by intro f hf; injection hf with hf; subst hf; exact he) hu h1
      exact ⟨Forgets.of g1.1 g1.2, g2⟩
  | .while c body, b, st, st', r, hsc, hu, h => by
    simp only [exec] at h
    have ht : AllForget (exec fuel field body) := fun st st' r hu h =>
      ⟨(exec_forgets fuel field body false _ _ _ hsc hu h).1,
        (exec_forgets fuel field body false _ _ _ hsc hu h).2,
        by rw [exec_unknown fuel field body _ _ _ h]; exact hu⟩
    obtain ⟨g1, g2⟩ := whileLoop_forgets (step := conditional field c (exec fuel field body) none)
      (fun st st' r cr hu h => ⟨(conditional_forgets ht (by intro f hf; cases hf) hu h).1,
        (conditional_forgets ht (by intro f hf; cases hf) hu h).2, by
          rw [conditional_unknown (e := none) (exec_unknown fuel field body) (by intro f hf; cases hf) h]
          exact hu⟩) fuel (startLoop st) _ _ hu h
    exact ⟨Forgets.of g1.1 g1.2, g2⟩
  | .block body, b, st, st', r, hsc, hu, h => by
    simp only [exec] at h
    split at h
    · cases h
    · rename_i st1 r1 h1
      simp only [Except.ok.injEq, Prod.mk.injEq] at h
      obtain ⟨rfl, rfl⟩ := h
      obtain ⟨g1, g2⟩ := exec_forgets fuel field body true _ _ _ hsc (by exact hu) h1
      exact ⟨Forgets.of g1.1 g1.2, g2⟩
  | .ret e, b, st, st', r, hsc, hu, h => by
    simp only [exec, hu, if_true] at h
    split at h
    · cases h
    · simp only [Except.ok.injEq, Prod.mk.injEq] at h
      obtain ⟨rfl, rfl⟩ := h
      exact ⟨Forgets.of (SmE.refl _) rfl, by intro v hv; injection hv with hv; exact hv.symm⟩

theorem exec_allForget (fuel : Nat) (field : Int) (s : Stmt) (hs : s.Scoped false) :
    AllForget (exec fuel field s) := fun st st' r hu h =>
  ⟨(exec_forgets fuel field s false _ _ _ hs hu h).1,
    (exec_forgets fuel field s false _ _ _ hs hu h).2,
    by rw [exec_unknown fuel field s _ _ _ h]; exact hu⟩

/-! ### Pending conditions inside unknown blocks -/

/-- The pending conditions are restored and all assignments happened under them. -/
def Balanced (st st' : St) : Prop :=
  st'.conds = st.conds ∧ ∃ new, st'.log = st.log ++ new ∧ ∀ e ∈ new, st.conds <+: e.2

theorem Balanced.refl (st : St) : Balanced st st := ⟨rfl, [], by simp, by simp⟩

theorem Balanced.trans {a b c : St} (h1 : Balanced a b) (h2 : Balanced b c) : Balanced a c := by
  obtain ⟨h1, n1, h3, h4⟩ := h1
  obtain ⟨g1, n2, g3, g4⟩ := h2
  refine ⟨g1.trans h1, n1 ++ n2, by rw [g3, h3, List.append_assoc], ?_⟩
  intro e he
  rcases List.mem_append.1 he with he | he
  · exact h4 e he
  · rw [← h1]; exact g4 e he

def AllBalanced (t : St → Ex (St × Option V)) : Prop :=
  ∀ st st' r, st.unknown = true → t st = .ok (st', r) → st'.loopInUnknown = false → Balanced st st'

/-- Shape of an execution of a conditional with unknown condition. -/
theorem conditional_balanced_unknown {field : Int} {c : Expr}
    {t : St → Ex (St × Option V)} {e : Option (St → Ex (St × Option V))}
    (ht : AllBalanced t) (he : ∀ f, e = some f → AllBalanced f)
    (htf : ∀ st st' r, t st = .ok (st', r) → Facts st st' ∧ st'.unknown = st.unknown)
    (hef : ∀ f, e = some f → ∀ st st' r, f st = .ok (st', r) → Facts st st')
    {st st' : St} {r : Option V}
    (h : conditional field c t e st = .ok (st', r, none)) (hl : st'.loopInUnknown = false) :
    Balanced st st' := by
  obtain ⟨vc, _, hc⟩ := conditional_cases h
  clear h
  rcases hc with ⟨_, h, _⟩ | ⟨_, h, _⟩ | ⟨f, _, h, _⟩ | ⟨_, _, _, st1, h, rfl⟩ |
    ⟨f, st1, r1, last, st2, r2, _, _, hf, h1, hlast, h2, rfl, rfl⟩
  · cases h
  · cases h
  · cases h
  · obtain ⟨g1, n, g2, g3⟩ := ht _ _ _ rfl h hl
    refine ⟨?_, n, g2, fun e he => (List.prefix_append _ _).trans (g3 e he)⟩
    show st1.conds.dropLast = st.conds
    rw [g1]
    simp [enter]
  · obtain ⟨hf1, hu1⟩ := htf _ _ _ h1
    have hl1 : st1.loopInUnknown = false := (hef f hf _ _ _ h2).loop_false hl
    obtain ⟨g1, n1, g2, g3⟩ := ht _ _ _ rfl h1 hl1
    obtain ⟨k1, n2, k2, k3⟩ := he f hf _ _ _ (by show st1.unknown = true; rw [hu1]; rfl) h2 hl
    have hc1 : st1.conds.dropLast = st.conds := by rw [g1]; simp [enter]
    refine ⟨?_, n1 ++ n2, ?_, ?_⟩
    · show st2.conds.dropLast = st.conds
      rw [k1]
      simp [flip, hc1]
    · show st2.log = _
      rw [k2, show (flip last st1).log = st1.log from rfl, g2, List.append_assoc]; rfl
    · intro e he
      rcases List.mem_append.1 he with he | he
      · exact (List.prefix_append _ _).trans (g3 e he)
      · refine List.IsPrefix.trans ?_ (k3 e he)
        show st.conds <+: st1.conds.dropLast ++ _
        rw [hc1]
        exact List.prefix_append _ _

theorem conditional_balanced {field : Int} {c : Expr}
    {t : St → Ex (St × Option V)} {e : Option (St → Ex (St × Option V))}
    (ht : AllBalanced t) (he : ∀ f, e = some f → AllBalanced f)
    (htf : ∀ st st' r, t st = .ok (st', r) → Facts st st' ∧ st'.unknown = st.unknown)
    (hef : ∀ f, e = some f → ∀ st st' r, f st = .ok (st', r) → Facts st st')
    {st st' : St} {r : Option V} {cr : Option Bool} (hu : st.unknown = true)
    (h : conditional field c t e st = .ok (st', r, cr)) (hl : st'.loopInUnknown = false) :
    Balanced st st' := by
  cases cr with
  | none => exact conditional_balanced_unknown ht he htf hef h hl
  | some q =>
    obtain ⟨vc, _, hc⟩ := conditional_cases h
    clear h
    rcases hc with ⟨_, _, h⟩ | ⟨_, _, _, rfl, rfl⟩ | ⟨f, _, _, hf, h⟩ | ⟨_, h, _⟩ |
      ⟨f, st1, r1, last, st2, r2, _, h, _⟩
    · exact ht _ _ _ hu h hl
    · exact Balanced.refl _
    · exact he f hf _ _ _ hu h hl
    · cases h
    · cases h

theorem exec_balanced (fuel : Nat) (field : Int) :
    ∀ (s : Stmt) (st st' : St) (r : Option V), st.unknown = true →
      exec fuel field s st = .ok (st', r) → st'.loopInUnknown = false → Balanced st st'
  | .skip, st, st', r, hu, h, hl => by
    simp only [exec, Except.ok.injEq, Prod.mk.injEq] at h
    obtain ⟨rfl, rfl⟩ := h
    exact Balanced.refl _
  | .decl x, st, st', r, hu, h, hl => by
    simp only [exec] at h
    split at h
    · cases h
    · rename_i env henv
      simp only [Except.ok.injEq, Prod.mk.injEq] at h
      obtain ⟨rfl, rfl⟩ := h
      exact ⟨rfl, [], by simp, by simp⟩
  | .assign x e, st, st', r, hu, h, hl => by
    simp only [exec] at h
    split at h
    · cases h
    · split at h
      · cases h
      · simp only [Except.ok.injEq, Prod.mk.injEq] at h
        obtain ⟨rfl, rfl⟩ := h
        exact ⟨rfl, [], by simp, by simp⟩
  | .sassign s e, st, st', r, hu, h, hl => by
    simp only [exec] at h
    split at h
    · cases h
    · split at h
      · cases h
      · rename_i st1 h1
        simp only [Except.ok.injEq, Prod.mk.injEq] at h
        obtain ⟨rfl, rfl⟩ := h
        obtain ⟨a, _, rfl⟩ := assignSignal_ok h1
        refine ⟨rfl, [(s, st.conds)], rfl, ?_⟩
        intro e he
        rw [List.mem_singleton.1 he]
  | .cassign s e, st, st', r, hu, h, hl => by
    simp only [exec, hu, if_true] at h
    split at h
    · cases h
    · split at h <;> cases h
  | .check l r, st, st', r', hu, h, hl => by
    simp only [exec, hu, if_true] at h
    cases h
  | .seq x y, st, st', r, hu, h, hl => by
    simp only [exec] at h
    split at h
    · cases h
    · rename_i st1 v h1
      simp only [Except.ok.injEq, Prod.mk.injEq] at h
      obtain ⟨rfl, rfl⟩ := h
      exact exec_balanced fuel field x _ _ _ hu h1 hl
    · rename_i st1 h1
      have hu1 : st1.unknown = true := by rw [exec_unknown fuel field x _ _ _ h1]; exact hu
      exact (exec_balanced fuel field x _ _ _ hu h1 ((exec_facts h).loop_false hl)).trans
        (exec_balanced fuel field y _ _ _ hu1 h hl)
  | .ifte c t none, st, st', r, hu, h, hl => by
    simp only [exec] at h
    split at h
    · cases h
    · rename_i st1 r1 cr h1
      simp only [Except.ok.injEq, Prod.mk.injEq] at h
      obtain ⟨rfl, rfl⟩ := h
      exact conditional_balanced (exec_balanced fuel field t) (by intro f hf; cases hf)
        (fun _ _ _ h => ⟨exec_facts h, exec_unknown fuel field t _ _ _ h⟩) (by intro f hf; cases hf)
        hu h1 hl
  | .ifte c t (some e), st, st', r, hu, h, hl => by
    simp only [exec] at h
    split at h
    · cases h
    · rename_i st1 r1 cr h1
      simp only [Except.ok.injEq, Prod.mk.injEq] at h
      obtain ⟨rfl, rfl⟩ := h
      exact conditional_balanced (exec_balanced fuel field t)
        (by intro f hf; injection hf with hf; subst hf; exact exec_balanced fuel field e)
        (fun _ _ _ h => ⟨exec_facts h, exec_unknown fuel field t _ _ _ h⟩)
        (by intro f hf; injection hf with hf; subst hf; exact fun _ _ _ h => exec_facts h)
        hu h1 hl
  | .while c body, st, st', r, hu, h, hl => by
    simp only [exec] at h
    have := kept_facts.whileLoop (step := conditional field c (exec fuel field body) none)
      (fun _ _ _ _ h => kept_facts.conditional (e := none) (fun _ _ _ h => exec_facts h)
        (by intro f hf; cases hf) h) fuel _ _ _ h
    have := this.loop_false hl
    simp [startLoop, hu] at this
  | .block body, st, st', r, hu, h, hl => by
    simp only [exec] at h
    split at h
    · cases h
    · rename_i st1 r1 h1
      simp only [Except.ok.injEq, Prod.mk.injEq] at h
      obtain ⟨rfl, rfl⟩ := h
      have := exec_balanced fuel field body _ _ _ (by exact hu) h1 hl
      exact this
  | .ret e, st, st', r, hu, h, hl => by
    simp only [exec] at h
    split at h
    · cases h
    · simp only [Except.ok.injEq, Prod.mk.injEq] at h
      obtain ⟨rfl, rfl⟩ := h
      exact Balanced.refl _

end Verif.Exec
