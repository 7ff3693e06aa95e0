import Verif.Inst

set_option linter.unusedVariables false
set_option linter.unusedSimpArgs false

/-! Facts about `Verif.Inst` used by the proofs of C88. -/

namespace Verif.Inst

theorem bind_ok {α β : Type} {x : Except Fault α} {f : α → Except Fault β} {r : β} :
    (x >>= f) = .ok r ↔ ∃ a, x = .ok a ∧ f a = .ok r := by
  cases x <;> simp [bind, Except.bind]

theorem bind_err {α β : Type} {x : Except Fault α} {f : α → Except Fault β} {r : Fault} :
    (x >>= f) = .error r ↔ x = .error r ∨ ∃ a, x = .ok a ∧ f a = .error r := by
  cases x <;> simp [bind, Except.bind]

theorem need_ok {α : Type} {f : Fault} {o : Option α} {a : α} : need f o = .ok a ↔ o = some a := by
  cases o <;> simp [need]

theorem need_err {α : Type} {f g : Fault} {o : Option α} : need f o = .error g ↔ o = none ∧ f = g := by
  cases o <;> simp [need]

theorem pure_ok {α : Type} {a b : α} : (pure a : Except Fault α) = .ok b ↔ a = b := by
  simp [pure, Except.pure]

theorem pure_err {α : Type} {a : α} {g : Fault} : (pure a : Except Fault α) = .error g ↔ False := by
  simp [pure, Except.pure]

/-! ## Headers -/

theorem under_split : ∀ {a c b d : List Char}, '_' ∉ b → '_' ∉ d → a ++ '_' :: b = c ++ '_' :: d → a = c ∧ b = d
  | [], [], b, d, hb, hd, h => by simpa using h
  | [], y :: c, b, d, hb, hd, h => by
    simp only [List.nil_append, List.cons_append, List.cons.injEq] at h
    obtain ⟨-, rfl⟩ := h
    exact absurd (by simp) hb
  | x :: a, [], b, d, hb, hd, h => by
    simp only [List.nil_append, List.cons_append, List.cons.injEq] at h
    obtain ⟨-, rfl⟩ := h
    exact absurd (by simp) hd
  | x :: a, y :: c, b, d, hb, hd, h => by
    simp only [List.cons_append, List.cons.injEq] at h
    obtain ⟨rfl, h⟩ := h
    obtain ⟨rfl, rfl⟩ := under_split hb hd h
    exact ⟨rfl, rfl⟩

theorem toString_chars (n : Nat) : (toString n).toList = Nat.toDigits 10 n := by
  simp [toString, Nat.repr]

theorem under_digits (n : Nat) : '_' ∉ (toString n).toList := fun h => by
  rw [toString_chars] at h
  exact absurd (Nat.isDigit_of_mem_toDigits (by decide) (by decide) h) (by decide)

theorem header_chars (f : String) (n : Nat) : (header f n).toList = f.toList ++ '_' :: (toString n).toList := by
  simp [header]

theorem header_inj {f g : String} {i j : Nat} (h : header f i = header g j) : f = g ∧ i = j := by
  have h' := congrArg String.toList h
  rw [header_chars, header_chars] at h'
  obtain ⟨h1, h2⟩ := under_split (under_digits i) (under_digits j) h'
  refine ⟨String.toList_inj.1 h1, ?_⟩
  rw [toString_chars, toString_chars] at h2
  have hi := Nat.ofDigitChars_ten_toDigits (n := i)
  rw [h2, Nat.ofDigitChars_ten_toDigits] at hi
  exact hi.symm

/-! ## States -/

/-- What holds of the list of instances at all times. -/
structure Good (st : St) : Prop where
  heads : ∀ i v, st.vcfs[i]? = some v → v.header = header v.name i
  known : ∀ v ∈ st.vcfs, ∃ fn ts, st.fn v.name = some fn ∧ v.body = fn.body ∧
    named fn.params ts = some v.params ∧ inferResult st.fns fn v.params = .ok v.ret
  apart : st.vcfs.Pairwise fun v w => ¬ (v.name = w.name ∧ v.params = w.params)

/-- More instances. -/
def Ext (st st' : St) : Prop := st'.fns = st.fns ∧ st.vcfs <+: st'.vcfs

theorem Ext.refl (st : St) : Ext st st := ⟨rfl, List.prefix_refl _⟩

theorem Ext.trans {a b c : St} (h : Ext a b) (h' : Ext b c) : Ext a c :=
  ⟨h'.1.trans h.1, h.2.trans h'.2⟩

theorem Ext.fn {a b : St} (h : Ext a b) (f : String) : b.fn f = a.fn f := by simp [St.fn, h.1]

theorem good_nil (fns : List Fn) : Good ⟨fns, []⟩ := ⟨by simp, by simp, by simp⟩

theorem Good.of_ext {a b : St} (h : Ext a b) (hb : Good b) : Good a := by
  obtain ⟨hf, r, hr⟩ := h
  refine ⟨fun i v hv => hb.heads i v ?_, fun v hv => ?_, ?_⟩
  · have hi : i < a.vcfs.length := (List.getElem?_eq_some_iff.1 hv).1
    rw [← hr, List.getElem?_append_left hi, hv]
  · have := hb.known v (by rw [← hr]; simp [hv])
    simpa [St.fn, hf] using this
  · have := hb.apart
    rw [← hr] at this
    exact (List.pairwise_append.1 this).1

theorem find_spec {st : St} {f ps v} (h : st.find f ps = some v) : v ∈ st.vcfs ∧ v.name = f ∧ v.params = ps := by
  have h1 := List.mem_of_find?_eq_some h
  have h2 := List.find?_some h
  simp only [Bool.and_eq_true, beq_iff_eq] at h2
  exact ⟨h1, h2.1, h2.2⟩

theorem find_ext {a b : St} (h : Ext a b) {f ps v} (hv : a.find f ps = some v) : b.find f ps = some v := by
  obtain ⟨-, r, hr⟩ := h
  simp only [St.find] at hv ⊢
  rw [← hr, List.find?_append, hv]
  rfl

theorem quick_header {st : St} (hg : Good st) {v : Vcf} (hv : v ∈ st.vcfs) :
    (st.vcfs.find? fun w => w.header == v.header) = some v := by
  obtain ⟨i, hi⟩ := List.mem_iff_getElem?.1 hv
  cases e : (st.vcfs.find? fun w => w.header == v.header) with
  | none =>
    have := List.find?_eq_none.1 e v hv
    simp at this
  | some w =>
    have h1 := List.mem_of_find?_eq_some e
    have h2 := List.find?_some e
    simp only [beq_iff_eq] at h2
    obtain ⟨j, hj⟩ := List.mem_iff_getElem?.1 h1
    rw [hg.heads i v hi, hg.heads j w hj] at h2
    obtain ⟨-, rfl⟩ := header_inj h2
    rw [hi] at hj
    exact hj.symm

theorem quick_eq {st : St} (hg : Good st) {v : Vcf} (hv : v ∈ st.vcfs) : st.quick v.header = some v.ret := by
  simp [St.quick, quick_header hg hv]

/-- A name that is the header of no instance of the functions. -/
def Clear (fns : List Fn) (n : String) : Prop := ∀ g ∈ fns, ∀ k, n ≠ header g.name k

theorem fn_name {st : St} {f : String} {fn : Fn} (h : st.fn f = some fn) : fn ∈ st.fns ∧ fn.name = f := by
  have h1 := List.mem_of_find?_eq_some h
  have h2 := List.find?_some h
  simp only [beq_iff_eq] at h2
  exact ⟨h1, h2⟩

theorem header_none {st : St} (hg : Good st) {n : String} (hn : Clear st.fns n) :
    (st.vcfs.find? fun w => w.header == n) = none := by
  refine List.find?_eq_none.2 fun w hw => ?_
  obtain ⟨i, hi⟩ := List.mem_iff_getElem?.1 hw
  obtain ⟨fn, ts, hfn, -⟩ := hg.known w hw
  simp only [beq_iff_eq]
  rw [hg.heads i w hi]
  intro e
  have hm := fn_name hfn
  exact hn fn hm.1 i (by rw [hm.2]; exact e.symm)

theorem quick_none {st : St} (hg : Good st) {n : String} (hn : Clear st.fns n) : st.quick n = none := by
  simp [St.quick, header_none hg hn]

theorem addInstance_spec {st st' : St} (hg : Good st) {f fn ps ts} (hf : st.fn f = some fn)
    (hp : named fn.params ts = some ps) (h : addInstance st fn ps = .ok st') :
    Good st' ∧ Ext st st' ∧ ∃ v, st'.find f ps = some v := by
  have hm := fn_name hf
  simp only [addInstance] at h
  cases e : st.find fn.name ps with
  | some v =>
    rw [e] at h
    obtain rfl : st = st' := by simpa using h
    exact ⟨hg, Ext.refl _, v, by rw [← hm.2]; exact e⟩
  | none =>
    rw [e] at h
    simp only [bind_ok, pure_ok] at h
    obtain ⟨r, hr, rfl⟩ := h
    have hex : Ext st { st with vcfs := st.vcfs ++ [⟨fn.name, header fn.name st.vcfs.length, ps, r, fn.body⟩] } :=
      ⟨rfl, List.prefix_append _ _⟩
    refine ⟨⟨?_, ?_, ?_⟩, hex, ⟨fn.name, header fn.name st.vcfs.length, ps, r, fn.body⟩, ?_⟩
    · intro i v hv
      rcases Nat.lt_or_ge i st.vcfs.length with hi | hi
      · rw [List.getElem?_append_left hi] at hv
        exact hg.heads i v hv
      · rw [List.getElem?_append_right hi] at hv
        have hz : i - st.vcfs.length = 0 := by
          by_contra hne
          obtain ⟨k, hk⟩ := Nat.exists_eq_succ_of_ne_zero hne
          rw [hk] at hv
          simp at hv
        rw [hz] at hv
        simp only [List.getElem?_cons_zero, Option.some.injEq] at hv
        subst hv
        have : i = st.vcfs.length := by omega
        rw [this]
    · intro v hv
      rcases List.mem_append.1 hv with hv | hv
      · exact hg.known v hv
      · simp only [List.mem_singleton] at hv
        subst hv
        exact ⟨fn, ts, by rw [← hf, ← hm.2]; rfl, rfl, hp, hr⟩
    · refine List.pairwise_append.2 ⟨hg.apart, by simp, fun v hv w hw => ?_⟩
      simp only [List.mem_singleton] at hw
      subst hw
      rintro ⟨h1, h2⟩
      have := List.find?_eq_none.1 e v hv
      simp only [Bool.and_eq_true, beq_iff_eq] at this
      exact this ⟨h1, h2⟩
    · simp only [St.find] at e ⊢
      rw [List.find?_append, ← hm.2, e]
      simp

mutual
theorem prodEx_good (env : Env) : ∀ (e : Ex) {st st' : St}, Good st → prodEx env st e = .ok st' → Good st' ∧ Ext st st'
  | .num _ _, st, st', hg, h => by
    simp only [prodEx, Except.ok.injEq] at h
    subst h
    exact ⟨hg, Ext.refl _⟩
  | .var _ _ idx, st, st', hg, h => by
    simp only [prodEx] at h
    exact prodAll_good env idx hg h
  | .port _ _ _ pre post, st, st', hg, h => by
    simp only [prodEx, bind_ok] at h
    obtain ⟨s, h1, h2⟩ := h
    obtain ⟨g1, x1⟩ := prodAll_good env pre hg h1
    obtain ⟨g2, x2⟩ := prodAll_good env post g1 h2
    exact ⟨g2, x1.trans x2⟩
  | .bin _ a b, st, st', hg, h => by
    simp only [prodEx, bind_ok] at h
    obtain ⟨s, h1, h2⟩ := h
    obtain ⟨g1, x1⟩ := prodEx_good env a hg h1
    obtain ⟨g2, x2⟩ := prodEx_good env b g1 h2
    exact ⟨g2, x1.trans x2⟩
  | .un _ a, st, st', hg, h => by
    simp only [prodEx] at h
    exact prodEx_good env a hg h
  | .par _ a, st, st', hg, h => by
    simp only [prodEx] at h
    exact prodEx_good env a hg h
  | .switch _ _ a b, st, st', hg, h => by
    simp only [prodEx, bind_ok] at h
    obtain ⟨s, h1, h2⟩ := h
    obtain ⟨g1, x1⟩ := prodEx_good env a hg h1
    obtain ⟨g2, x2⟩ := prodEx_good env b g1 h2
    exact ⟨g2, x1.trans x2⟩
  | .call _ f args, st, st', hg, h => by
    simp only [prodEx, bind_ok] at h
    obtain ⟨s, h1, h2⟩ := h
    obtain ⟨g1, x1⟩ := prodAll_good env args hg h1
    cases e : s.fn f with
    | none =>
      rw [e] at h2
      obtain rfl : s = st' := by simpa using h2
      exact ⟨g1, x1⟩
    | some fn =>
      rw [e] at h2
      simp only [bind_ok, toParams, need_ok] at h2
      obtain ⟨ps, ⟨ts, -, hp⟩, h3⟩ := h2
      obtain ⟨g2, x2, -⟩ := addInstance_spec g1 e hp h3
      exact ⟨g2, x1.trans x2⟩
  | .arr _ vs, st, st', hg, h => by
    simp only [prodEx] at h
    exact prodAll_good env vs hg h
  | .uni _ a b, st, st', hg, h => by
    simp only [prodEx, bind_ok] at h
    obtain ⟨s, h1, h2⟩ := h
    obtain ⟨g1, x1⟩ := prodEx_good env a hg h1
    obtain ⟨g2, x2⟩ := prodEx_good env b g1 h2
    exact ⟨g2, x1.trans x2⟩

theorem prodAll_good (env : Env) : ∀ (es : List Ex) {st st' : St}, Good st → prodAll env st es = .ok st' → Good st' ∧ Ext st st'
  | [], st, st', hg, h => by
    simp only [prodAll, Except.ok.injEq] at h
    subst h
    exact ⟨hg, Ext.refl _⟩
  | e :: es, st, st', hg, h => by
    simp only [prodAll, bind_ok] at h
    obtain ⟨s, h1, h2⟩ := h
    obtain ⟨g1, x1⟩ := prodEx_good env e hg h1
    obtain ⟨g2, x2⟩ := prodAll_good env es g1 h2
    exact ⟨g2, x1.trans x2⟩
end

mutual
theorem prodSt_good : ∀ (s : Stm) {env env' : Env} {st st' : St}, Good st → prodSt env st s = .ok (env', st') → Good st' ∧ Ext st st'
  | .ret e, env, env', st, st', hg, h => by
    simp only [prodSt, bind_ok, pure_ok, Prod.mk.injEq] at h
    obtain ⟨s, h1, -, rfl⟩ := h
    exact prodEx_good env e hg h1
  | .block ss, env, env', st, st', hg, h => by
    simp only [prodSt, bind_ok, pure_ok, Prod.mk.injEq, Prod.exists] at h
    obtain ⟨e, s, h1, -, rfl⟩ := h
    exact prodSts_good ss hg h1
  | .init ss, env, env', st, st', hg, h => by
    simp only [prodSt] at h
    exact prodSts_good ss hg h
  | .ifThen c a, env, env', st, st', hg, h => by
    simp only [prodSt, bind_ok] at h
    obtain ⟨s, h1, h2⟩ := h
    obtain ⟨g1, x1⟩ := prodEx_good env c hg h1
    obtain ⟨g2, x2⟩ := prodSt_good a g1 h2
    exact ⟨g2, x1.trans x2⟩
  | .ifElse c a b, env, env', st, st', hg, h => by
    simp only [prodSt, bind_ok, Prod.exists] at h
    obtain ⟨s, h1, e2, s2, h2, h3⟩ := h
    obtain ⟨g1, x1⟩ := prodEx_good env c hg h1
    obtain ⟨g2, x2⟩ := prodSt_good a g1 h2
    obtain ⟨g3, x3⟩ := prodSt_good b g2 h3
    exact ⟨g3, (x1.trans x2).trans x3⟩
  | .loop c a, env, env', st, st', hg, h => by
    simp only [prodSt, bind_ok] at h
    obtain ⟨s, h1, h2⟩ := h
    obtain ⟨g1, x1⟩ := prodEx_good env c hg h1
    obtain ⟨g2, x2⟩ := prodSt_good a g1 h2
    exact ⟨g2, x1.trans x2⟩
  | .decl n sizes ty, env, env', st, st', hg, h => by
    simp only [prodSt, bind_ok, pure_ok, Prod.mk.injEq] at h
    obtain ⟨s, h1, -, rfl⟩ := h
    exact prodAll_good env sizes hg h1
  | .subst n acc e, env, env', st, st', hg, h => by
    simp only [prodSt, bind_ok, pure_ok, Prod.mk.injEq] at h
    obtain ⟨s, h1, s2, h2, -, rfl⟩ := h
    obtain ⟨g1, x1⟩ := prodEx_good env e hg h1
    obtain ⟨g2, x2⟩ := prodAll_good env acc g1 h2
    exact ⟨g2, x1.trans x2⟩
  | .ceq a b, env, env', st, st', hg, h => by
    simp only [prodSt, bind_ok, pure_ok, Prod.mk.injEq] at h
    obtain ⟨s, h1, s2, h2, -, rfl⟩ := h
    obtain ⟨g1, x1⟩ := prodEx_good env a hg h1
    obtain ⟨g2, x2⟩ := prodEx_good env b g1 h2
    exact ⟨g2, x1.trans x2⟩
  | .log es, env, env', st, st', hg, h => by
    simp only [prodSt, bind_ok, pure_ok, Prod.mk.injEq] at h
    obtain ⟨s, h1, -, rfl⟩ := h
    exact prodAll_good env es hg h1
  | .check e, env, env', st, st', hg, h => by
    simp only [prodSt, bind_ok, pure_ok, Prod.mk.injEq] at h
    obtain ⟨s, h1, -, rfl⟩ := h
    exact prodEx_good env e hg h1
  | .under, env, env', st, st', hg, h => by
    simp only [prodSt, Except.ok.injEq, Prod.mk.injEq] at h
    obtain ⟨-, rfl⟩ := h
    exact ⟨hg, Ext.refl _⟩

theorem prodSts_good : ∀ (ss : List Stm) {env env' : Env} {st st' : St}, Good st → prodSts env st ss = .ok (env', st') → Good st' ∧ Ext st st'
  | [], env, env', st, st', hg, h => by
    simp only [prodSts, Except.ok.injEq, Prod.mk.injEq] at h
    obtain ⟨-, rfl⟩ := h
    exact ⟨hg, Ext.refl _⟩
  | s :: ss, env, env', st, st', hg, h => by
    simp only [prodSts, bind_ok, Prod.exists] at h
    obtain ⟨e1, s1, h1, h2⟩ := h
    obtain ⟨g1, x1⟩ := prodSt_good s hg h1
    obtain ⟨g2, x2⟩ := prodSts_good ss g1 h2
    exact ⟨g2, x1.trans x2⟩
end

theorem prodTmpls_good : ∀ (ts : List Tmpl) {st st' : St}, Good st → prodTmpls st ts = .ok st' →
    Good st' ∧ Ext st st' ∧ ∀ t ∈ ts, ∃ s env' s', Good s ∧ prodSt (Env.start t.ports t.consts) s t.code = .ok (env', s') ∧ Ext s' st'
  | [], st, st', hg, h => by
    simp only [prodTmpls, Except.ok.injEq] at h
    subst h
    exact ⟨hg, Ext.refl _, by simp⟩
  | t :: ts, st, st', hg, h => by
    simp only [prodTmpls, bind_ok, Prod.exists] at h
    obtain ⟨e1, s1, h1, h2⟩ := h
    obtain ⟨g1, x1⟩ := prodSt_good t.code hg h1
    obtain ⟨g2, x2, h3⟩ := prodTmpls_good ts g1 h2
    refine ⟨g2, x1.trans x2, fun u hu => ?_⟩
    rcases List.mem_cons.1 hu with rfl | hu
    · exact ⟨st, e1, s1, hg, h1, x2⟩
    · exact h3 u hu

theorem work_good : ∀ (n i : Nat) {st st' : St}, Good st → work n i st = .ok st' →
    Good st' ∧ Ext st st' ∧ ∀ k v, i ≤ k → st'.vcfs[k]? = some v →
      ∃ s env' s', Good s ∧ prodSt (Env.start [] v.params) s v.body = .ok (env', s') ∧ Ext s' st'
  | 0, i, st, st', hg, h => by simp [work] at h
  | n + 1, i, st, st', hg, h => by
    simp only [work] at h
    cases e : st.vcfs[i]? with
    | none =>
      rw [e] at h
      obtain rfl : st = st' := by simpa using h
      refine ⟨hg, Ext.refl _, fun k v hk hv => ?_⟩
      have := List.getElem?_eq_none_iff.1 e
      have := (List.getElem?_eq_some_iff.1 hv).1
      omega
    | some v =>
      rw [e] at h
      simp only [bind_ok, Prod.exists] at h
      obtain ⟨e1, s1, h1, h2⟩ := h
      obtain ⟨g1, x1⟩ := prodSt_good v.body hg h1
      obtain ⟨g2, x2, h3⟩ := work_good n (i + 1) g1 h2
      refine ⟨g2, x1.trans x2, fun k w hk hw => ?_⟩
      rcases Nat.eq_or_lt_of_le hk with rfl | hk
      · have hi : i < st.vcfs.length := (List.getElem?_eq_some_iff.1 e).1
        obtain ⟨-, r, hr⟩ := x1.trans x2
        rw [← hr, List.getElem?_append_left hi, e] at hw
        obtain rfl := Option.some.inj hw
        exact ⟨st, e1, s1, hg, h1, x2⟩
      · exact h3 k w hk hw

theorem produce_good {n fns ts st} (h : produce n fns ts = .ok st) :
    Good st ∧ st.fns = fns ∧
    (∀ t ∈ ts, ∃ s env' s', Good s ∧ prodSt (Env.start t.ports t.consts) s t.code = .ok (env', s') ∧ Ext s' st) ∧
    (∀ v ∈ st.vcfs, ∃ s env' s', Good s ∧ prodSt (Env.start [] v.params) s v.body = .ok (env', s') ∧ Ext s' st) := by
  simp only [produce, bind_ok] at h
  obtain ⟨s, h1, h2⟩ := h
  obtain ⟨g1, x1, p1⟩ := prodTmpls_good ts (good_nil fns) h1
  obtain ⟨g2, x2, p2⟩ := work_good n 0 g1 h2
  refine ⟨g2, x2.1.trans x1.1, fun t ht => ?_, fun v hv => ?_⟩
  · obtain ⟨a, b, c, hg, d, e⟩ := p1 t ht
    exact ⟨a, b, c, hg, d, e.trans x2⟩
  · obtain ⟨i, hi⟩ := List.mem_iff_getElem?.1 hv
    exact p2 i v (by omega) hi

end Verif.Inst
