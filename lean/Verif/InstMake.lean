import Verif.InstEnds

set_option linter.unusedVariables false
set_option linter.unusedSimpArgs false

/-! Making the instances meets no missing instance. -/

namespace Verif.Inst

mutual
/-- More instances do not change the dimensions found. -/
theorem cast_ext {a b : St} (ha : Good a) (hb : Good b) (hx : Ext a b) {env : Env} : ∀ (e : Ex) {t},
    e.Calls (Clear a.fns) → cast a env e = .ok t → cast b env e = .ok t
  | .num _ _, t, hc, h => by simpa only [cast] using h
  | .var _ n idx, t, hc, h => by simpa only [cast] using h
  | .port _ n f i j, t, hc, h => by simpa only [cast] using h
  | .bin _ _ _, t, hc, h => by simpa only [cast] using h
  | .un _ _, t, hc, h => by simpa only [cast] using h
  | .par _ _, t, hc, h => by simpa only [cast] using h
  | .switch _ c x y, t, hc, h => by
    simp only [cast] at h ⊢
    exact cast_ext ha hb hx x hc.2.1 h
  | .call _ f args, t, hc, h => by
    have hc' : Clear b.fns f := by rw [hx.1]; exact hc.1
    simp only [cast, quick_none ha hc.1, quick_none hb hc', hx.fn] at h ⊢
    cases hf : a.fn f with
    | none => rw [hf] at h; exact h
    | some fn =>
      rw [hf] at h
      simp only [bind_ok, need_ok, pure_ok] at h ⊢
      obtain ⟨ts, h1, ps, h2, v, h3, h4⟩ := h
      exact ⟨ts, castAll_ext ha hb hx args hc.2 h1, ps, h2, v, find_ext hx h3, h4⟩
  | .arr _ [], t, hc, h => by simp [cast] at h
  | .arr _ (v :: vs), t, hc, h => by
    simp only [cast, bind_ok, pure_ok] at h ⊢
    obtain ⟨t1, h1, t2, h2, h3⟩ := h
    exact ⟨t1, cast_ext ha hb hx v hc.1 h1, t2, widen_ext ha hb hx vs hc.2 h2, h3⟩
  | .uni _ v d, t, hc, h => by
    simp only [cast, bind_ok, pure_ok] at h ⊢
    obtain ⟨k, h1, t2, h2, h3⟩ := h
    exact ⟨k, h1, t2, cast_ext ha hb hx v hc.1 h2, h3⟩

theorem castAll_ext {a b : St} (ha : Good a) (hb : Good b) (hx : Ext a b) {env : Env} : ∀ (es : List Ex) {ts},
    CallsAll (Clear a.fns) es → castAll a env es = .ok ts → castAll b env es = .ok ts
  | [], t, hc, h => by simpa only [castAll] using h
  | e :: es, t, hc, h => by
    simp only [castAll, bind_ok, pure_ok] at h ⊢
    obtain ⟨t1, h1, t2, h2, h3⟩ := h
    exact ⟨t1, cast_ext ha hb hx e hc.1 h1, t2, castAll_ext ha hb hx es hc.2 h2, h3⟩

theorem widen_ext {a b : St} (ha : Good a) (hb : Good b) (hx : Ext a b) {env : Env} : ∀ (es : List Ex) {t u},
    CallsAll (Clear a.fns) es → widen a env t es = .ok u → widen b env t es = .ok u
  | [], t, u, hc, h => by simpa only [widen] using h
  | e :: es, t, u, hc, h => by
    simp only [widen, bind_ok, pure_ok] at h ⊢
    obtain ⟨t1, h1, t2, h2, h3⟩ := h
    exact ⟨t1, cast_ext ha hb hx e hc.1 h1, t2, h2, widen_ext ha hb hx es hc.2 h3⟩
end

mutual
/-- After the instances of `e` have been made, its dimensions are found. -/
theorem cast_found {s : St} (hg : Good s) {env : Env} : ∀ (e : Ex) {st st' : St}, Good st →
    e.Calls (Clear s.fns) → prodEx env st e = .ok st' → Ext st' s → cast s env e ≠ .error .missing
  | .num _ _, st, st', hs, hc, h, hx => by simp [cast]
  | .var _ n idx, st, st', hs, hc, h, hx => by
    simp only [cast, ne_eq, bind_err, need_err, pure_err, and_false, exists_false, or_false]
    simp
  | .port _ n f i j, st, st', hs, hc, h, hx => by
    simp only [cast, ne_eq, bind_err, need_err, pure_err, and_false, exists_false, or_false]
    simp
  | .bin _ _ _, st, st', hs, hc, h, hx => by simp [cast]
  | .un _ _, st, st', hs, hc, h, hx => by simp [cast]
  | .par _ _, st, st', hs, hc, h, hx => by simp [cast]
  | .switch _ c a b, st, st', hs, hc, h, hx => by
    simp only [prodEx, bind_ok] at h
    obtain ⟨s1, p1, p2⟩ := h
    have g1 := prodEx_good env a hs p1
    have g2 := prodEx_good env b g1.1 p2
    simp only [cast]
    exact cast_found hg a hs hc.2.1 p1 (g2.2.trans hx)
  | .call _ f args, st, st', hs, hc, h, hx => by
    simp only [prodEx, bind_ok] at h
    obtain ⟨s1, p1, p2⟩ := h
    have g1 := prodAll_good env args hs p1
    simp only [cast, quick_none hg hc.1]
    cases hf : s.fn f with
    | none => simp
    | some fn =>
      have hx1 : Ext s1 s := by
        cases e : s1.fn f with
        | none =>
          rw [e] at p2
          obtain rfl : s1 = st' := by simpa using p2
          exact hx
        | some fn' =>
          rw [e] at p2
          simp only [bind_ok, toParams, need_ok] at p2
          obtain ⟨ps, ⟨ts, -, hp⟩, h3⟩ := p2
          exact (addInstance_spec g1.1 e hp h3).2.1.trans hx
      have hf1 : s1.fn f = some fn := by rw [← hx1.fn, hf]
      rw [hf1] at p2
      simp only [bind_ok, toParams, need_ok] at p2
      obtain ⟨ps, ⟨ts, hts, hp⟩, h3⟩ := p2
      obtain ⟨g2, x2, v, hv⟩ := addInstance_spec g1.1 hf1 hp h3
      have hc2 : CallsAll (Clear s1.fns) args := by rw [← hx1.1]; exact hc.2
      have h4 := castAll_ext g1.1 hg hx1 args hc2 hts
      simp [h4, hp, find_ext hx hv, bind_err, need, bind, Except.bind, pure, Except.pure]
  | .arr _ [], st, st', hs, hc, h, hx => by simp [cast]
  | .arr _ (v :: vs), st, st', hs, hc, h, hx => by
    simp only [prodEx, prodAll, bind_ok] at h
    obtain ⟨s1, p1, p2⟩ := h
    have g1 := prodEx_good env v hs p1
    have g2 := prodAll_good env vs g1.1 p2
    have h1 := cast_found hg v hs hc.1 p1 (g2.2.trans hx)
    have h2 := fun t => widen_found hg vs g1.1 hc.2 p2 hx t
    simp only [cast, ne_eq, bind_err, pure_err, h1, h2, and_false, exists_false, or_false, not_false_eq_true]
  | .uni _ a b, st, st', hs, hc, h, hx => by
    simp only [prodEx, bind_ok] at h
    obtain ⟨s1, p1, p2⟩ := h
    have g1 := prodEx_good env a hs p1
    have g2 := prodEx_good env b g1.1 p2
    have h1 := cast_found hg a hs hc.1 p1 (g2.2.trans hx)
    simp only [cast, ne_eq, bind_err, need_err, pure_err, and_false, exists_false, or_false, h1]
    simp

theorem widen_found {s : St} (hg : Good s) {env : Env} : ∀ (es : List Ex) {st st' : St}, Good st →
    CallsAll (Clear s.fns) es → prodAll env st es = .ok st' → Ext st' s → ∀ t, widen s env t es ≠ .error .missing
  | [], st, st', hs, hc, h, hx, t => by simp [widen]
  | e :: es, st, st', hs, hc, h, hx, t => by
    simp only [prodAll, bind_ok] at h
    obtain ⟨s1, p1, p2⟩ := h
    have g1 := prodEx_good env e hs p1
    have g2 := prodAll_good env es g1.1 p2
    have h1 := cast_found hg e hs hc.1 p1 (g2.2.trans hx)
    have h2 := fun q => widen_found hg es g1.1 hc.2 p2 hx q
    simp only [widen, ne_eq, bind_err, need_err, h1, h2, and_false, exists_false, or_false, false_or]
    simp
end

theorem castAll_found {s : St} (hg : Good s) {env : Env} : ∀ (es : List Ex) {st st' : St}, Good st →
    CallsAll (Clear s.fns) es → prodAll env st es = .ok st' → Ext st' s → castAll s env es ≠ .error .missing
  | [], st, st', hs, hc, h, hx => by simp [castAll]
  | e :: es, st, st', hs, hc, h, hx => by
    simp only [prodAll, bind_ok] at h
    obtain ⟨s1, p1, p2⟩ := h
    have g1 := prodEx_good env e hs p1
    have g2 := prodAll_good env es g1.1 p2
    have h1 := cast_found hg e hs hc.1 p1 (g2.2.trans hx)
    have h2 := castAll_found hg es g1.1 hc.2 p2 hx
    simp only [castAll, ne_eq, bind_err, pure_err, h1, h2, and_false, exists_false, or_false, not_false_eq_true]

theorem addInstance_found (st : St) (fn : Fn) (ps : List (String × Vct)) : addInstance st fn ps ≠ .error .missing := by
  simp only [addInstance]
  split
  · simp
  · simp only [ne_eq, bind_err, pure_err, and_false, exists_false, or_false]
    intro h
    exact absurd (inferResult_ends _ _ _ _ h) (by decide)

mutual
theorem prodEx_found (env : Env) : ∀ (e : Ex) {st : St}, Good st → e.Calls (Clear st.fns) →
    prodEx env st e ≠ .error .missing
  | .num _ _, st, hg, hc => by simp [prodEx]
  | .var _ n idx, st, hg, hc => by
    simp only [prodEx]
    exact prodAll_found env idx hg hc
  | .port _ n f i j, st, hg, hc => by
    simp only [prodEx, ne_eq, bind_err, not_or, not_exists, not_and]
    refine ⟨prodAll_found env i hg hc.1, fun s h => ?_⟩
    have g := prodAll_good env i hg h
    exact prodAll_found env j g.1 (by rw [g.2.1]; exact hc.2)
  | .bin _ a b, st, hg, hc => by
    simp only [prodEx, ne_eq, bind_err, not_or, not_exists, not_and]
    refine ⟨prodEx_found env a hg hc.1, fun s h => ?_⟩
    have g := prodEx_good env a hg h
    exact prodEx_found env b g.1 (by rw [g.2.1]; exact hc.2)
  | .un _ a, st, hg, hc => by
    simp only [prodEx]
    exact prodEx_found env a hg hc
  | .par _ a, st, hg, hc => by
    simp only [prodEx]
    exact prodEx_found env a hg hc
  | .switch _ c a b, st, hg, hc => by
    simp only [prodEx, ne_eq, bind_err, not_or, not_exists, not_and]
    refine ⟨prodEx_found env a hg hc.2.1, fun s h => ?_⟩
    have g := prodEx_good env a hg h
    exact prodEx_found env b g.1 (by rw [g.2.1]; exact hc.2.2)
  | .call _ f args, st, hg, hc => by
    simp only [prodEx, ne_eq, bind_err, not_or, not_exists, not_and]
    refine ⟨prodAll_found env args hg hc.2, fun s h => ?_⟩
    have g := prodAll_good env args hg h
    cases hf : s.fn f with
    | none => simp
    | some fn =>
      have h1 := castAll_found g.1 (env := env) args hg (by rw [g.2.1]; exact hc.2) h (Ext.refl _)
      have h2 := addInstance_found s fn
      simp only [bind_err, toParams, need_err, h1, h2, and_false, exists_false, or_false, false_or]
      simp
  | .arr _ vs, st, hg, hc => by
    simp only [prodEx]
    exact prodAll_found env vs hg hc
  | .uni _ a b, st, hg, hc => by
    simp only [prodEx, ne_eq, bind_err, not_or, not_exists, not_and]
    refine ⟨prodEx_found env a hg hc.1, fun s h => ?_⟩
    have g := prodEx_good env a hg h
    exact prodEx_found env b g.1 (by rw [g.2.1]; exact hc.2)

theorem prodAll_found (env : Env) : ∀ (es : List Ex) {st : St}, Good st → CallsAll (Clear st.fns) es →
    prodAll env st es ≠ .error .missing
  | [], st, hg, hc => by simp [prodAll]
  | e :: es, st, hg, hc => by
    simp only [prodAll, ne_eq, bind_err, not_or, not_exists, not_and]
    refine ⟨prodEx_found env e hg hc.1, fun s h => ?_⟩
    have g := prodEx_good env e hg h
    exact prodAll_found env es g.1 (by rw [g.2.1]; exact hc.2)
end

mutual
theorem prodSt_found : ∀ (s : Stm) {env : Env} {st : St}, Good st → s.Calls (Clear st.fns) →
    prodSt env st s ≠ .error .missing
  | .ret e, env, st, hg, hc => by
    simpa only [prodSt, ne_eq, bind_err, pure_err, and_false, exists_false, or_false] using prodEx_found env e hg hc
  | .block ss, env, st, hg, hc => by
    simpa only [prodSt, ne_eq, bind_err, pure_err, and_false, exists_false, or_false] using prodSts_found ss hg hc
  | .init ss, env, st, hg, hc => by
    simp only [prodSt]
    exact prodSts_found ss hg hc
  | .ifThen c a, env, st, hg, hc => by
    simp only [prodSt, ne_eq, bind_err, not_or, not_exists, not_and]
    refine ⟨prodEx_found env c hg hc.1, fun s h => ?_⟩
    have g := prodEx_good env c hg h
    exact prodSt_found a g.1 (by rw [g.2.1]; exact hc.2)
  | .ifElse c a b, env, st, hg, hc => by
    simp only [prodSt, ne_eq, bind_err, not_or, not_exists, not_and, Prod.forall]
    refine ⟨prodEx_found env c hg hc.1, fun s h => ?_⟩
    have g := prodEx_good env c hg h
    refine ⟨prodSt_found a g.1 (by rw [g.2.1]; exact hc.2.1), fun e s' h' => ?_⟩
    have g' := prodSt_good a g.1 h'
    exact prodSt_found b g'.1 (by rw [g'.2.1, g.2.1]; exact hc.2.2)
  | .loop c a, env, st, hg, hc => by
    simp only [prodSt, ne_eq, bind_err, not_or, not_exists, not_and]
    refine ⟨prodEx_found env c hg hc.1, fun s h => ?_⟩
    have g := prodEx_good env c hg h
    exact prodSt_found a g.1 (by rw [g.2.1]; exact hc.2)
  | .decl n sizes ty, env, st, hg, hc => by
    simpa only [prodSt, ne_eq, bind_err, pure_err, and_false, exists_false, or_false] using prodAll_found env sizes hg hc
  | .subst n acc e, env, st, hg, hc => by
    simp only [prodSt, ne_eq, bind_err, pure_err, and_false, exists_false, or_false, not_or, not_exists, not_and]
    refine ⟨prodEx_found env e hg hc.2, fun s h => ?_⟩
    have g := prodEx_good env e hg h
    exact prodAll_found env acc g.1 (by rw [g.2.1]; exact hc.1)
  | .ceq a b, env, st, hg, hc => by
    simp only [prodSt, ne_eq, bind_err, pure_err, and_false, exists_false, or_false, not_or, not_exists, not_and]
    refine ⟨prodEx_found env a hg hc.1, fun s h => ?_⟩
    have g := prodEx_good env a hg h
    exact prodEx_found env b g.1 (by rw [g.2.1]; exact hc.2)
  | .log es, env, st, hg, hc => by
    simpa only [prodSt, ne_eq, bind_err, pure_err, and_false, exists_false, or_false] using prodAll_found env es hg hc
  | .check e, env, st, hg, hc => by
    simpa only [prodSt, ne_eq, bind_err, pure_err, and_false, exists_false, or_false] using prodEx_found env e hg hc
  | .under, env, st, hg, hc => by simp [prodSt]

theorem prodSts_found : ∀ (ss : List Stm) {env : Env} {st : St}, Good st → CallsSts (Clear st.fns) ss →
    prodSts env st ss ≠ .error .missing
  | [], env, st, hg, hc => by simp [prodSts]
  | s :: ss, env, st, hg, hc => by
    simp only [prodSts, ne_eq, bind_err, not_or, not_exists, not_and, Prod.forall]
    refine ⟨prodSt_found s hg hc.1, fun e s' h => ?_⟩
    have g := prodSt_good s hg h
    exact prodSts_found ss g.1 (by rw [g.2.1]; exact hc.2)
end

theorem prodTmpls_found : ∀ (ts : List Tmpl) {st : St}, Good st → (∀ t ∈ ts, t.code.Calls (Clear st.fns)) →
    prodTmpls st ts ≠ .error .missing
  | [], st, hg, hc => by simp [prodTmpls]
  | t :: ts, st, hg, hc => by
    simp only [prodTmpls, ne_eq, bind_err, not_or, not_exists, not_and, Prod.forall]
    refine ⟨prodSt_found t.code hg (hc t (by simp)), fun e s' h => ?_⟩
    have g := prodSt_good t.code hg h
    exact prodTmpls_found ts g.1 (by rw [g.2.1]; exact fun u hu => hc u (by simp [hu]))

theorem body_calls {st : St} (hg : Good st) (hc : ∀ f ∈ st.fns, f.body.Calls (Clear st.fns)) {v} (hv : v ∈ st.vcfs) :
    v.body.Calls (Clear st.fns) := by
  obtain ⟨fn, ts, h1, h2, -⟩ := hg.known v hv
  rw [h2]
  exact hc fn (List.mem_of_find?_eq_some h1)

theorem work_found : ∀ (n i : Nat) {st : St}, Good st → (∀ f ∈ st.fns, f.body.Calls (Clear st.fns)) →
    work n i st ≠ .error .missing
  | 0, i, st, hg, hc => by simp [work]
  | n + 1, i, st, hg, hc => by
    simp only [work]
    cases e : st.vcfs[i]? with
    | none => simp
    | some v =>
      simp only [ne_eq, bind_err, not_or, not_exists, not_and, Prod.forall]
      refine ⟨prodSt_found v.body hg (body_calls hg hc (List.mem_of_getElem? e)), fun e s' h => ?_⟩
      have g := prodSt_good v.body hg h
      exact work_found n (i + 1) g.1 (by rw [g.2.1]; exact hc)

theorem merge_found {n fns ts} (hf : ∀ f ∈ fns, f.body.Calls (Clear fns)) (ht : ∀ t ∈ ts, t.code.Calls (Clear fns)) :
    merge n fns ts ≠ .error .missing := by
  intro h
  simp only [merge, bind_err] at h
  rcases h with h | ⟨st, hp, h⟩
  · simp only [produce, bind_err] at h
    rcases h with h | ⟨s, h1, h⟩
    · exact prodTmpls_found ts (good_nil fns) ht h
    · obtain ⟨g, x, -⟩ := prodTmpls_good ts (good_nil fns) h1
      have e : s.fns = fns := x.1
      exact work_found n 0 g (by rw [e]; exact hf) h
  · obtain ⟨g, e, p1, p2⟩ := produce_good hp
    subst e
    simp only [link, bind_err, pure_err, and_false, exists_false, or_false] at h
    rcases h with h | ⟨_, -, h⟩
    · exact linkTmpls_found g ht p1 h
    · exact linkVcfs_found g (fun v hv => body_calls g hf hv) p2 h

end Verif.Inst
