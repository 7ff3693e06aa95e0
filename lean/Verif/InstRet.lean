import Verif.InstLink

set_option linter.unusedVariables false
set_option linter.unusedSimpArgs false

/-! The dimensions inferred for the result of a function, and the end of the search for them. -/

namespace Verif.Inst

/-! ## The words of the claim -/

mutual
/-- The dimensions of the expression are found without entering a function: no call decides
them. -/
def Ex.Direct : Ex → Prop
  | .num _ _ => True
  | .var _ _ _ => True
  | .port _ _ _ _ _ => False
  | .bin _ _ _ => True
  | .un _ _ => True
  | .par _ _ => False
  | .switch _ _ a _ => a.Direct
  | .call _ _ _ => False
  | .arr _ vs => DirectAll vs
  | .uni _ v _ => v.Direct

/-- The same for a list. -/
def DirectAll : List Ex → Prop
  | [] => True
  | e :: es => e.Direct ∧ DirectAll es
end

/-- What an initialization block holds: declarations and assignments. -/
def Stm.Flat : Stm → Prop
  | .decl _ _ _ => True
  | .subst _ _ _ => True
  | .ceq _ _ => True
  | _ => False

mutual
/-- Every value returned is `Direct`; initialization blocks are flat. -/
def Stm.Direct : Stm → Prop
  | .ret e => e.Direct
  | .block ss => DirectSts ss
  | .init ss => ∀ s ∈ ss, s.Flat
  | .ifThen _ a => a.Direct
  | .ifElse _ a b => a.Direct ∧ b.Direct
  | .loop _ s => s.Direct
  | _ => True

/-- The same for a list. -/
def DirectSts : List Stm → Prop
  | [] => True
  | s :: ss => s.Direct ∧ DirectSts ss
end

/-- `e` is the value of a return statement of `s`. -/
inductive Returned : Stm → Ex → Prop where
  | ret {e} : Returned (.ret e) e
  | block {s ss e} : s ∈ ss → Returned s e → Returned (.block ss) e
  | ifThen {c a e} : Returned a e → Returned (.ifThen c a) e
  | yes {c a b e} : Returned a e → Returned (.ifElse c a b) e
  | no {c a b e} : Returned b e → Returned (.ifElse c a b) e
  | loop {c a e} : Returned a e → Returned (.loop c a) e

/-! ## The order of words -/

theorem lexLe_refl : ∀ t : Vct, lexLe t t = true
  | [] => rfl
  | a :: t => by simp [lexLe, lexLe_refl t]

theorem lexLe_total : ∀ s t : Vct, lexLe s t = true ∨ lexLe t s = true
  | [], _ => .inl rfl
  | _ :: _, [] => .inr rfl
  | a :: s, b :: t => by
    rcases Nat.lt_trichotomy a b with h | h | h
    · left; simp [lexLe, h]
    · subst h
      rcases lexLe_total s t with h | h
      · left; simp [lexLe, h]
      · right; simp [lexLe, h]
    · right; simp [lexLe, h]

theorem lexLe_trans : ∀ {r s t : Vct}, lexLe r s = true → lexLe s t = true → lexLe r t = true
  | [], _, _, _, _ => rfl
  | _ :: _, [], _, h, _ => by simp [lexLe] at h
  | _ :: _, _ :: _, [], _, h => by simp [lexLe] at h
  | a :: r, b :: s, c :: t, h, h' => by
    simp only [lexLe, Bool.or_eq_true, decide_eq_true_eq, Bool.and_eq_true, beq_iff_eq] at h h' ⊢
    rcases h with h | ⟨rfl, h⟩ <;> rcases h' with h' | ⟨rfl, h'⟩
    · left; omega
    · left; omega
    · left; omega
    · right; exact ⟨rfl, lexLe_trans h h'⟩

theorem le_vmax_left (s t : Vct) : lexLe s (vmax s t) = true := by
  simp only [vmax]
  split
  · assumption
  · exact lexLe_refl _

theorem le_vmax_right (s t : Vct) : lexLe t (vmax s t) = true := by
  simp only [vmax]
  split
  · exact lexLe_refl _
  · rcases lexLe_total s t with h | h
    · contradiction
    · exact h

/-- `t` is at most the dimensions found so far. -/
def Below (t : Vct) (r : Option Vct) : Prop := ∃ q, r = some q ∧ lexLe t q = true

theorem below_left {t : Vct} {r s : Option Vct} (h : Below t r) : Below t (join r s) := by
  obtain ⟨q, rfl, h⟩ := h
  cases s with
  | none => exact ⟨q, rfl, h⟩
  | some s => exact ⟨_, rfl, lexLe_trans h (le_vmax_right _ _)⟩

theorem below_right {t : Vct} {r s : Option Vct} (h : Below t s) : Below t (join r s) := by
  obtain ⟨q, rfl, h⟩ := h
  cases r with
  | none => exact ⟨q, rfl, h⟩
  | some s => exact ⟨_, rfl, lexLe_trans h (le_vmax_left _ _)⟩

/-! ## Expressions -/

theorem raise_agree : ∀ {t s q q' : Vct}, raise t s = some q → raiseI t s = some q' → q = q'
  | [], [], q, q', h, h' => by simp_all [raise, raiseI]
  | a :: t, [], q, q', h, h' => by simp [raiseI] at h'
  | [], b :: s, q, q', h, h' => by simp [raise] at h
  | a :: t, b :: s, q, q', h, h' => by
    simp only [raise, raiseI, Option.map_eq_some_iff] at h h'
    obtain ⟨x, hx, rfl⟩ := h
    obtain ⟨y, hy, rfl⟩ := h'
    rw [raise_agree hx hy]

mutual
theorem infer_direct {fns body} {st : St} : ∀ {e e' : Ex} {c c' : Ctx} {r}, e.Direct → linkEx st c.env e = .ok e' →
    inferEx fns body c e = .ok (r, c') → c' = c ∧ r = e'.dims
  | .num m v, e', c, c', r, hd, hl, h => by
    simp only [linkEx] at hl
    obtain ⟨t, ht, rfl⟩ := stamp_ok.1 hl
    simp only [cast, Except.ok.injEq] at ht
    simp only [inferEx, Except.ok.injEq, Prod.mk.injEq] at h
    exact ⟨h.2.symm, by rw [mark_dims, ← ht, ← h.1]⟩
  | .var m n idx, e', c, c', r, hd, hl, h => by
    simp only [linkEx, bind_ok] at hl
    obtain ⟨idx', h1, hl⟩ := hl
    obtain ⟨t, ht, rfl⟩ := stamp_ok.1 hl
    simp only [cast, bind_ok, need_ok, pure_ok] at ht
    obtain ⟨u, hu, rfl⟩ := ht
    simp only [inferEx, bind_ok, need_ok] at h
    obtain ⟨w, hw, h⟩ := h
    rw [hu] at hw
    obtain rfl := Option.some.inj hw
    split at h
    · simp at h
    · simp only [Except.ok.injEq, Prod.mk.injEq] at h
      obtain ⟨-, -, -, hlen⟩ := linkAll_cast h1
      exact ⟨h.2.symm, by rw [mark_dims, ← h.1, hlen]⟩
  | .port _ _ _ _ _, e', c, c', r, hd, hl, h => hd.elim
  | .bin m a b, e', c, c', r, hd, hl, h => by
    simp only [linkEx, bind_ok] at hl
    obtain ⟨a', h1, b', h2, hl⟩ := hl
    obtain ⟨t, ht, rfl⟩ := stamp_ok.1 hl
    simp only [cast, Except.ok.injEq] at ht
    simp only [inferEx, Except.ok.injEq, Prod.mk.injEq] at h
    exact ⟨h.2.symm, by rw [mark_dims, ← ht, ← h.1]⟩
  | .un m a, e', c, c', r, hd, hl, h => by
    simp only [linkEx, bind_ok] at hl
    obtain ⟨a', h1, hl⟩ := hl
    obtain ⟨t, ht, rfl⟩ := stamp_ok.1 hl
    simp only [cast, Except.ok.injEq] at ht
    simp only [inferEx, Except.ok.injEq, Prod.mk.injEq] at h
    exact ⟨h.2.symm, by rw [mark_dims, ← ht, ← h.1]⟩
  | .par _ _, e', c, c', r, hd, hl, h => hd.elim
  | .switch m g a b, e', c, c', r, hd, hl, h => by
    simp only [linkEx, bind_ok] at hl
    obtain ⟨a', h1, b', h2, hl⟩ := hl
    obtain ⟨t, ht, rfl⟩ := stamp_ok.1 hl
    simp only [cast] at ht
    obtain ⟨u, hu, hdm⟩ := link_cast h1
    rw [ht] at hu
    obtain rfl := Except.ok.inj hu
    simp only [inferEx, bind_ok, Prod.exists] at h
    obtain ⟨r1, c1, h3, h⟩ := h
    obtain ⟨rfl, rfl⟩ := infer_direct (e := a) hd h1 h3
    simp only [hdm, Except.ok.injEq, Prod.mk.injEq] at h
    exact ⟨h.2.symm, by rw [mark_dims, h.1]⟩
  | .call _ _ _, e', c, c', r, hd, hl, h => hd.elim
  | .arr m [], e', c, c', r, hd, hl, h => by simp [inferEx] at h
  | .arr m (v :: vs), e', c, c', r, hd, hl, h => by
    simp only [linkEx, bind_ok] at hl
    obtain ⟨ws, h1, hl⟩ := hl
    obtain ⟨v', vs', h2, h3, rfl⟩ := linkAll_cons.1 h1
    obtain ⟨t, ht, rfl⟩ := stamp_ok.1 hl
    simp only [cast, bind_ok, pure_ok] at ht
    obtain ⟨t1, ht1, t2, ht2, rfl⟩ := ht
    obtain ⟨u, hu, hdm⟩ := link_cast h2
    rw [ht1] at hu
    obtain rfl := Except.ok.inj hu
    simp only [inferEx, bind_ok, Prod.exists] at h
    obtain ⟨r1, c1, h4, h⟩ := h
    obtain ⟨rfl, rfl⟩ := infer_direct (e := v) hd.1 h2 h4
    simp only [hdm, bind_ok, Prod.exists, Except.ok.injEq, Prod.mk.injEq] at h
    obtain ⟨r2, c2, h5, rfl, rfl⟩ := h
    obtain ⟨rfl, rfl⟩ := widen_direct (es := vs) hd.2 h3 ht2 h5
    obtain ⟨-, -, -, hlen⟩ := linkAll_cast h3
    exact ⟨rfl, by rw [mark_dims, hlen]; rfl⟩
  | .uni m v d, e', c, c', r, hd, hl, h => by
    simp only [linkEx, bind_ok] at hl
    obtain ⟨v', h1, d', h2, hl⟩ := hl
    obtain ⟨t, ht, rfl⟩ := stamp_ok.1 hl
    simp only [cast, bind_ok, need_ok, pure_ok] at ht
    obtain ⟨k, hk, t1, ht1, rfl⟩ := ht
    obtain ⟨u, hu, hdm⟩ := link_cast h1
    rw [ht1] at hu
    obtain rfl := Except.ok.inj hu
    simp only [inferEx, bind_ok, need_ok, Prod.exists, Except.ok.injEq, Prod.mk.injEq] at h
    obtain ⟨k', hk', r1, c1, h3, rfl, rfl⟩ := h
    obtain ⟨rfl, rfl⟩ := infer_direct (e := v) hd h1 h3
    obtain ⟨m', rfl⟩ := size_num hk'
    simp only [linkEx] at h2
    obtain ⟨q, -, rfl⟩ := stamp_ok.1 h2
    have : k = k' := by
      have h' : size (Ex.num m' k') = some k := hk
      rw [hk'] at h'
      exact (Option.some.inj h').symm
    exact ⟨rfl, by rw [mark_dims, hdm, this]; rfl⟩

theorem widen_direct {fns body} {st : St} : ∀ {es es' : List Ex} {c c' : Ctx} {t t' r}, DirectAll es →
    linkAll st c.env es = .ok es' → widen st c.env t es' = .ok t' →
    inferWiden fns body c t es = .ok (r, c') → c' = c ∧ r = some t'
  | [], es', c, c', t, t', r, hd, hl, hw, h => by
    simp only [linkAll, Except.ok.injEq] at hl
    subst hl
    simp only [widen, Except.ok.injEq] at hw
    simp only [inferWiden, Except.ok.injEq, Prod.mk.injEq] at h
    exact ⟨h.2.symm, by rw [← h.1, hw]⟩
  | e :: es, es', c, c', t, t', r, hd, hl, hw, h => by
    obtain ⟨e', es', h1, h2, rfl⟩ := linkAll_cons.1 hl
    simp only [widen, bind_ok, need_ok] at hw
    obtain ⟨s, hs, q, hq, hw⟩ := hw
    obtain ⟨u, hu, hdm⟩ := link_cast h1
    rw [hs] at hu
    obtain rfl := Except.ok.inj hu
    simp only [inferWiden, bind_ok, Prod.exists] at h
    obtain ⟨r1, c1, h3, h⟩ := h
    obtain ⟨rfl, rfl⟩ := infer_direct (e := e) hd.1 h1 h3
    simp only [hdm, bind_ok, need_ok] at h
    obtain ⟨q', hq', h⟩ := h
    obtain rfl := raise_agree hq hq'
    exact widen_direct (es := es) hd.2 h2 hw h
end

/-! ## Statements -/

theorem init_direct {st : St} : ∀ {ss ss' : List Stm} {c : Ctx} {env'}, (∀ s ∈ ss, s.Flat) →
    linkSts st c.env ss = .ok (env', ss') → inferInit c ss = { c with env := env' }
  | [], ss', c, env', hf, h => by
    simp only [linkSts, Except.ok.injEq, Prod.mk.injEq] at h
    obtain ⟨rfl, -⟩ := h
    rfl
  | s :: ss, ss', c, env', hf, h => by
    simp only [linkSts, bind_ok, pure_ok, Prod.mk.injEq, Prod.exists] at h
    obtain ⟨e1, s', h1, e2, ss2, h2, rfl, -⟩ := h
    have hs := hf s (by simp)
    have ih := fun {c : Ctx} (h : c.env = e1) => init_direct (st := st) (ss := ss) (ss' := ss2) (c := c) (env' := e2)
      (fun x hx => hf x (by simp [hx])) (by rw [h]; exact h2)
    cases s with
    | decl n sizes ty =>
      simp only [linkSt, bind_ok, pure_ok, Prod.mk.injEq] at h1
      obtain ⟨_, -, rfl, -⟩ := h1
      simp only [inferInit]
      rw [ih rfl]
    | subst n acc e =>
      simp only [linkSt, bind_ok, pure_ok, Prod.mk.injEq] at h1
      obtain ⟨_, -, _, -, rfl, -⟩ := h1
      simp only [inferInit]
      rw [ih rfl]
    | ceq a b =>
      simp only [linkSt, bind_ok, pure_ok, Prod.mk.injEq] at h1
      obtain ⟨_, -, _, -, rfl, -⟩ := h1
      simp only [inferInit]
      rw [ih rfl]
    | _ => exact hs.elim

mutual
theorem inferSt_direct {fns body} {st : St} : ∀ {s s' : Stm} {c c' : Ctx} {env' r}, s.Direct →
    linkSt st c.env s = .ok (env', s') → inferSt fns body c s = .ok (r, c') →
    c' = { c with env := env' } ∧ ∀ e, Returned s' e → ∃ t, e.dims = some t ∧ Below t r
  | .ret e, s', c, c', env', r, hd, hl, h => by
    simp only [linkSt, bind_ok, pure_ok, Prod.mk.injEq] at hl
    obtain ⟨e', h1, rfl, rfl⟩ := hl
    simp only [inferSt] at h
    obtain ⟨rfl, rfl⟩ := infer_direct (e := e) hd h1 h
    refine ⟨rfl, fun x hx => ?_⟩
    cases hx
    obtain ⟨t, -, ht⟩ := link_cast h1
    exact ⟨t, ht, t, ht, lexLe_refl t⟩
  | .block ss, s', c, c', env', r, hd, hl, h => by
    simp only [linkSt, bind_ok, pure_ok, Prod.mk.injEq, Prod.exists] at hl
    obtain ⟨e1, ss', h1, rfl, rfl⟩ := hl
    simp only [inferSt, bind_ok, Prod.exists, Except.ok.injEq, Prod.mk.injEq] at h
    obtain ⟨r1, c1, h2, rfl, rfl⟩ := h
    obtain ⟨rfl, h3⟩ := inferSts_direct (ss := ss) (c := { c with env := c.env.push }) hd h1 h2
    refine ⟨rfl, fun x hx => ?_⟩
    cases hx with
    | block hm hr => exact h3.2 _ hm x hr
  | .init ss, s', c, c', env', r, hd, hl, h => by
    simp only [linkSt, bind_ok, pure_ok, Prod.mk.injEq, Prod.exists] at hl
    obtain ⟨e1, ss', h1, rfl, rfl⟩ := hl
    simp only [inferSt, Except.ok.injEq, Prod.mk.injEq] at h
    refine ⟨by rw [← h.2, init_direct hd h1], fun x hx => by cases hx⟩
  | .ifThen g a, s', c, c', env', r, hd, hl, h => by
    simp only [linkSt, bind_ok, pure_ok, Prod.mk.injEq, Prod.exists] at hl
    obtain ⟨g', h0, e1, a', h1, rfl, rfl⟩ := hl
    simp only [inferSt] at h
    obtain ⟨h2, h3⟩ := inferSt_direct (s := a) hd h1 h
    refine ⟨h2, fun x hx => ?_⟩
    cases hx with
    | ifThen hr => exact h3 x hr
  | .ifElse g a b, s', c, c', env', r, hd, hl, h => by
    simp only [linkSt, bind_ok, pure_ok, Prod.mk.injEq, Prod.exists] at hl
    obtain ⟨g', h0, e1, a', h1, e2, b', h2, rfl, rfl⟩ := hl
    simp only [inferSt, bind_ok, Prod.exists, Except.ok.injEq, Prod.mk.injEq] at h
    obtain ⟨r1, c1, k1, r2, c2, k2, rfl, rfl⟩ := h
    obtain ⟨rfl, h3⟩ := inferSt_direct (s := a) hd.1 h1 k1
    obtain ⟨rfl, h4⟩ := inferSt_direct (s := b) (c := { c with env := e1 }) hd.2 h2 k2
    refine ⟨rfl, fun x hx => ?_⟩
    cases hx with
    | yes hr => obtain ⟨t, ht, hb⟩ := h3 x hr; exact ⟨t, ht, below_left hb⟩
    | no hr => obtain ⟨t, ht, hb⟩ := h4 x hr; exact ⟨t, ht, below_right hb⟩
  | .loop g a, s', c, c', env', r, hd, hl, h => by
    simp only [linkSt, bind_ok, pure_ok, Prod.mk.injEq, Prod.exists] at hl
    obtain ⟨g', h0, e1, a', h1, rfl, rfl⟩ := hl
    simp only [inferSt] at h
    obtain ⟨h2, h3⟩ := inferSt_direct (s := a) hd h1 h
    refine ⟨h2, fun x hx => ?_⟩
    cases hx with
    | loop hr => exact h3 x hr
  | .decl n sizes ty, s', c, c', env', r, hd, hl, h => by
    simp only [linkSt, bind_ok, pure_ok, Prod.mk.injEq] at hl
    obtain ⟨_, -, rfl, rfl⟩ := hl
    simp only [inferSt, Except.ok.injEq, Prod.mk.injEq] at h
    exact ⟨h.2.symm, fun x hx => by cases hx⟩
  | .subst n acc e, s', c, c', env', r, hd, hl, h => by
    simp only [linkSt, bind_ok, pure_ok, Prod.mk.injEq] at hl
    obtain ⟨_, -, _, -, rfl, rfl⟩ := hl
    simp only [inferSt, Except.ok.injEq, Prod.mk.injEq] at h
    exact ⟨h.2.symm, fun x hx => by cases hx⟩
  | .ceq a b, s', c, c', env', r, hd, hl, h => by
    simp only [linkSt, bind_ok, pure_ok, Prod.mk.injEq] at hl
    obtain ⟨_, -, _, -, rfl, rfl⟩ := hl
    simp only [inferSt, Except.ok.injEq, Prod.mk.injEq] at h
    exact ⟨h.2.symm, fun x hx => by cases hx⟩
  | .log es, s', c, c', env', r, hd, hl, h => by
    simp only [linkSt, bind_ok, pure_ok, Prod.mk.injEq] at hl
    obtain ⟨_, -, rfl, rfl⟩ := hl
    simp only [inferSt, Except.ok.injEq, Prod.mk.injEq] at h
    exact ⟨h.2.symm, fun x hx => by cases hx⟩
  | .check e, s', c, c', env', r, hd, hl, h => by
    simp only [linkSt, bind_ok, pure_ok, Prod.mk.injEq] at hl
    obtain ⟨_, -, rfl, rfl⟩ := hl
    simp only [inferSt, Except.ok.injEq, Prod.mk.injEq] at h
    exact ⟨h.2.symm, fun x hx => by cases hx⟩
  | .under, s', c, c', env', r, hd, hl, h => by simp [inferSt] at h

theorem inferSts_direct {fns body} {st : St} : ∀ {ss ss' : List Stm} {c c' : Ctx} {env' r0 r}, DirectSts ss →
    linkSts st c.env ss = .ok (env', ss') → inferSts fns body c r0 ss = .ok (r, c') →
    c' = { c with env := env' } ∧ (∀ t, Below t r0 → Below t r) ∧
      ∀ s' ∈ ss', ∀ e, Returned s' e → ∃ t, e.dims = some t ∧ Below t r
  | [], ss', c, c', env', r0, r, hd, hl, h => by
    simp only [linkSts, Except.ok.injEq, Prod.mk.injEq] at hl
    obtain ⟨rfl, rfl⟩ := hl
    simp only [inferSts, Except.ok.injEq, Prod.mk.injEq] at h
    obtain ⟨rfl, rfl⟩ := h
    exact ⟨rfl, fun _ h => h, by simp⟩
  | s :: ss, ss', c, c', env', r0, r, hd, hl, h => by
    simp only [linkSts, bind_ok, pure_ok, Prod.mk.injEq, Prod.exists] at hl
    obtain ⟨e1, s', h1, e2, ss2, h2, rfl, rfl⟩ := hl
    simp only [inferSts, bind_ok, Prod.exists] at h
    obtain ⟨r1, c1, k1, k2⟩ := h
    obtain ⟨rfl, h3⟩ := inferSt_direct (s := s) hd.1 h1 k1
    obtain ⟨rfl, h4, h5⟩ := inferSts_direct (ss := ss) (c := { c with env := e1 }) hd.2 h2 k2
    refine ⟨rfl, fun t ht => h4 t (below_left ht), fun x hx e he => ?_⟩
    rcases List.mem_cons.1 hx with rfl | hx
    · obtain ⟨t, ht, hb⟩ := h3 e he
      exact ⟨t, ht, h4 t (below_right hb)⟩
    · exact h5 x hx e he
end

/-! ## The dimensions found are those of a returned value -/

theorem join_some {r s : Option Vct} {q} (h : join r s = some q) : r = some q ∨ s = some q := by
  cases r with
  | none => exact .inr h
  | some a =>
    cases s with
    | none => exact .inl h
    | some b =>
      simp only [join, vmax, Option.some.injEq] at h
      split at h
      · exact .inl (by rw [h])
      · exact .inr (by rw [h])

mutual
theorem inferSt_attained {fns body} {st : St} : ∀ {s s' : Stm} {c c' : Ctx} {env' r q}, s.Direct →
    linkSt st c.env s = .ok (env', s') → inferSt fns body c s = .ok (r, c') → r = some q →
    ∃ e, Returned s' e ∧ e.dims = some q
  | .ret e, s', c, c', env', r, q, hd, hl, h, hr => by
    simp only [linkSt, bind_ok, pure_ok, Prod.mk.injEq] at hl
    obtain ⟨e', h1, rfl, rfl⟩ := hl
    simp only [inferSt] at h
    obtain ⟨rfl, rfl⟩ := infer_direct (e := e) hd h1 h
    exact ⟨e', .ret, hr⟩
  | .block ss, s', c, c', env', r, q, hd, hl, h, hr => by
    simp only [linkSt, bind_ok, pure_ok, Prod.mk.injEq, Prod.exists] at hl
    obtain ⟨e1, ss', h1, rfl, rfl⟩ := hl
    simp only [inferSt, bind_ok, Prod.exists, Except.ok.injEq, Prod.mk.injEq] at h
    obtain ⟨r1, c1, h2, rfl, rfl⟩ := h
    rcases inferSts_attained (ss := ss) (c := { c with env := c.env.push }) hd h1 h2 hr with h | ⟨s, hs, e, he, hq⟩
    · simp at h
    · exact ⟨e, .block hs he, hq⟩
  | .init ss, s', c, c', env', r, q, hd, hl, h, hr => by
    simp only [inferSt, Except.ok.injEq, Prod.mk.injEq] at h
    simp [← h.1] at hr
  | .ifThen g a, s', c, c', env', r, q, hd, hl, h, hr => by
    simp only [linkSt, bind_ok, pure_ok, Prod.mk.injEq, Prod.exists] at hl
    obtain ⟨g', h0, e1, a', h1, rfl, rfl⟩ := hl
    simp only [inferSt] at h
    obtain ⟨e, he, hq⟩ := inferSt_attained (s := a) hd h1 h hr
    exact ⟨e, .ifThen he, hq⟩
  | .ifElse g a b, s', c, c', env', r, q, hd, hl, h, hr => by
    simp only [linkSt, bind_ok, pure_ok, Prod.mk.injEq, Prod.exists] at hl
    obtain ⟨g', h0, e1, a', h1, e2, b', h2, rfl, rfl⟩ := hl
    simp only [inferSt, bind_ok, Prod.exists, Except.ok.injEq, Prod.mk.injEq] at h
    obtain ⟨r1, c1, k1, r2, c2, k2, rfl, rfl⟩ := h
    rcases join_some hr with hr | hr
    · obtain ⟨e, he, hq⟩ := inferSt_attained (s := a) hd.1 h1 k1 hr
      exact ⟨e, .yes he, hq⟩
    · obtain ⟨rfl, -⟩ := inferSt_direct (s := a) hd.1 h1 k1
      obtain ⟨e, he, hq⟩ := inferSt_attained (s := b) (c := { c with env := e1 }) hd.2 h2 k2 hr
      exact ⟨e, .no he, hq⟩
  | .loop g a, s', c, c', env', r, q, hd, hl, h, hr => by
    simp only [linkSt, bind_ok, pure_ok, Prod.mk.injEq, Prod.exists] at hl
    obtain ⟨g', h0, e1, a', h1, rfl, rfl⟩ := hl
    simp only [inferSt] at h
    obtain ⟨e, he, hq⟩ := inferSt_attained (s := a) hd h1 h hr
    exact ⟨e, .loop he, hq⟩
  | .decl n sizes ty, s', c, c', env', r, q, hd, hl, h, hr => by
    simp only [inferSt, Except.ok.injEq, Prod.mk.injEq] at h
    simp [← h.1] at hr
  | .subst n acc e, s', c, c', env', r, q, hd, hl, h, hr => by
    simp only [inferSt, Except.ok.injEq, Prod.mk.injEq] at h
    simp [← h.1] at hr
  | .ceq a b, s', c, c', env', r, q, hd, hl, h, hr => by
    simp only [inferSt, Except.ok.injEq, Prod.mk.injEq] at h
    simp [← h.1] at hr
  | .log es, s', c, c', env', r, q, hd, hl, h, hr => by
    simp only [inferSt, Except.ok.injEq, Prod.mk.injEq] at h
    simp [← h.1] at hr
  | .check e, s', c, c', env', r, q, hd, hl, h, hr => by
    simp only [inferSt, Except.ok.injEq, Prod.mk.injEq] at h
    simp [← h.1] at hr
  | .under, s', c, c', env', r, q, hd, hl, h, hr => by simp [inferSt] at h

theorem inferSts_attained {fns body} {st : St} : ∀ {ss ss' : List Stm} {c c' : Ctx} {env' r0 r q}, DirectSts ss →
    linkSts st c.env ss = .ok (env', ss') → inferSts fns body c r0 ss = .ok (r, c') → r = some q →
    r0 = some q ∨ ∃ s' ∈ ss', ∃ e, Returned s' e ∧ e.dims = some q
  | [], ss', c, c', env', r0, r, q, hd, hl, h, hr => by
    simp only [inferSts, Except.ok.injEq, Prod.mk.injEq] at h
    exact .inl (by rw [h.1, hr])
  | s :: ss, ss', c, c', env', r0, r, q, hd, hl, h, hr => by
    simp only [linkSts, bind_ok, pure_ok, Prod.mk.injEq, Prod.exists] at hl
    obtain ⟨e1, s', h1, e2, ss2, h2, rfl, rfl⟩ := hl
    simp only [inferSts, bind_ok, Prod.exists] at h
    obtain ⟨r1, c1, k1, k2⟩ := h
    obtain ⟨rfl, -⟩ := inferSt_direct (s := s) hd.1 h1 k1
    rcases inferSts_attained (ss := ss) (c := { c with env := e1 }) hd.2 h2 k2 hr with h | ⟨x, hx, e, he, hq⟩
    · rcases join_some h with h | h
      · exact .inl h
      · obtain ⟨e, he, hq⟩ := inferSt_attained (s := s) hd.1 h1 k1 h
        exact .inr ⟨s', by simp, e, he, hq⟩
    · exact .inr ⟨x, by simp [hx], e, he, hq⟩
end

/-! ## The list of linked instances -/

/-- The two lists differ in the bodies at most. -/
def Twin (v w : Vcf) : Prop := w.name = v.name ∧ w.header = v.header ∧ w.params = v.params ∧ w.ret = v.ret

theorem origin_twin {I J : List Vcf} (h : List.Forall₂ Twin I J) (x : String) : origin J x = origin I x := by
  induction h with
  | nil => rfl
  | @cons a b l m h _ ih =>
    simp only [origin, List.find?_cons, h.2.1] at ih ⊢
    cases a.header == x with
    | true => exact h.1
    | false => exact ih

theorem mem_twin {I J : List Vcf} (h : List.Forall₂ Twin I J) {v} (hv : v ∈ I) : ∃ w ∈ J, Twin v w := by
  induction h with
  | nil => simp at hv
  | @cons a b l m h _ ih =>
    rcases List.mem_cons.1 hv with rfl | hv
    · exact ⟨b, by simp, h⟩
    · obtain ⟨w, hw, t⟩ := ih hv
      exact ⟨w, by simp [hw], t⟩

theorem linked_twin {fns I J env e} (hI : List.Forall₂ Twin I J) (h : Linked fns I env e) : Linked fns J env e := by
  induction h with
  | num v => exact .num v
  | var h _ ih => exact .var h ih
  | port h _ _ ih1 ih2 => exact .port h ih1 ih2
  | bin _ _ i j => exact .bin i j
  | un _ i => exact .un i
  | par _ i => exact .par i
  | switch _ _ hd i j => exact .switch i j hd
  | call hv _ hp ih =>
    obtain ⟨w, hw, t⟩ := mem_twin hI hv
    rw [← t.2.1, ← t.2.2.2]
    exact .call hw ih (by rw [t.2.2.1]; exact hp)
  | create h _ ih => exact .create h ih
  | arr _ hm hl ih => exact .arr ih hm hl
  | uni _ hd i => exact .uni i hd

mutual
theorem linkedSt_twin {fns I J} (hI : List.Forall₂ Twin I J) : ∀ {s : Stm} {env env'}, LinkedSt fns I env s env' →
    LinkedSt fns J env s env'
  | _, _, _, .ret h => .ret (linked_twin hI h)
  | _, _, _, .block h => .block (linkedSts_twin hI h)
  | _, _, _, .init h => .init (linkedSts_twin hI h)
  | _, _, _, .ifThen h k => .ifThen (linked_twin hI h) (linkedSt_twin hI k)
  | _, _, _, .ifElse h k l => .ifElse (linked_twin hI h) (linkedSt_twin hI k) (linkedSt_twin hI l)
  | _, _, _, .loop h k => .loop (linked_twin hI h) (linkedSt_twin hI k)
  | _, _, _, .decl h => .decl fun e he => linked_twin hI (h e he)
  | _, _, _, .subst h k => .subst (fun e he => linked_twin hI (h e he)) (linked_twin hI k)
  | _, _, _, .ceq h k => .ceq (linked_twin hI h) (linked_twin hI k)
  | _, _, _, .log h => .log fun e he => linked_twin hI (h e he)
  | _, _, _, .check h => .check (linked_twin hI h)
  | _, _, _, .under => .under

theorem linkedSts_twin {fns I J} (hI : List.Forall₂ Twin I J) : ∀ {ss : List Stm} {env env'}, LinkedSts fns I env ss env' →
    LinkedSts fns J env ss env'
  | _, _, _, .nil => .nil
  | _, _, _, .cons h k => .cons (linkedSt_twin hI h) (linkedSts_twin hI k)
end

end Verif.Inst
