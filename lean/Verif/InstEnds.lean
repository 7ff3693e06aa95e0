import Verif.InstRet

set_option linter.unusedVariables false
set_option linter.unusedSimpArgs false

/-! The search for the dimensions of a result ends. -/

namespace Verif.Inst

/-- The number of functions not opened. -/
def left (fns : List Fn) (opened : List String) : Nat := (fns.filter fun g => g.name ∉ opened).length

theorem left_mono {fns : List Fn} {a b : List String} (h : a ⊆ b) : left fns b ≤ left fns a := by
  simp only [left]
  induction fns with
  | nil => simp
  | cons g gs ih =>
    simp only [List.filter_cons]
    by_cases h1 : g.name ∈ a
    · have h2 := h h1
      simp only [h1, h2, not_true_eq_false, decide_false, Bool.false_eq_true, if_false]
      exact ih
    · simp only [h1, not_false_eq_true, decide_true, if_true, List.length_cons]
      split
      · simp only [List.length_cons]; omega
      · omega

theorem left_lt {fns : List Fn} {a : List String} {fn : Fn} (h : fn ∈ fns) (hn : fn.name ∉ a) :
    left fns (fn.name :: a) < left fns a := by
  induction fns with
  | nil => simp at h
  | cons g gs ih =>
    have hm : left gs (fn.name :: a) ≤ left gs a := left_mono (List.subset_cons_self _ _)
    simp only [left, List.filter_cons] at hm ih ⊢
    rcases List.mem_cons.1 h with rfl | h
    · simp only [List.mem_cons] at hm
      simp only [List.mem_cons, true_or, not_true_eq_false, decide_false, Bool.false_eq_true, if_false, hn,
        not_false_eq_true, decide_true, if_true, List.length_cons]
      omega
    · have := ih h
      by_cases h1 : g.name ∈ a
      · have h2 : g.name ∈ fn.name :: a := by simp [h1]
        simp only [h1, h2, not_true_eq_false, decide_false, Bool.false_eq_true, if_false]
        exact this
      · simp only [h1, not_false_eq_true, decide_true, if_true, List.length_cons]
        split
        · simp only [List.length_cons]; omega
        · omega

/-- What the search for the dimensions of a result does not meet. -/
def Fault.bad : Fault → Bool
  | .fuel => true
  | .missing => true
  | _ => false

/-- The search ends, and leaves open what was. -/
def Fine {α : Type} (c : Ctx) (x : Except Fault (α × Ctx)) : Prop :=
  (∀ f, x = .error f → f.bad = false) ∧ ∀ r c', x = .ok (r, c') → c.opened ⊆ c'.opened

theorem fine_ok {α : Type} {c c' : Ctx} (h : c.opened ⊆ c'.opened) (a : α) : Fine c (.ok (a, c')) :=
  ⟨by simp, fun r d h' => by
    simp only [Except.ok.injEq, Prod.mk.injEq] at h'
    rw [← h'.2]; exact h⟩

theorem fine_err {α : Type} {c : Ctx} {f : Fault} (h : f.bad = false) : Fine (α := α) c (.error f) :=
  ⟨by simpa using h, by simp⟩

theorem fine_bind {α β : Type} {c : Ctx} {x : Except Fault (α × Ctx)} {k : α × Ctx → Except Fault (β × Ctx)}
    (hx : Fine c x) (hk : ∀ a d, x = .ok (a, d) → c.opened ⊆ d.opened → Fine d (k (a, d))) : Fine c (x >>= k) := by
  refine ⟨?_, fun r c' h => ?_⟩
  · intro f h
    simp only [bind_err, Prod.exists] at h
    rcases h with h | ⟨a, d, h, h'⟩
    · exact hx.1 f h
    · exact (hk a d h (hx.2 a d h)).1 f h'
  · simp only [bind_ok, Prod.exists] at h
    obtain ⟨a, d, h1, h2⟩ := h
    exact (hx.2 a d h1).trans ((hk a d h1 (hx.2 a d h1)).2 r c' h2)

theorem fine_need {α β : Type} {c : Ctx} {f : Fault} (hf : f.bad = false) {o : Option α} {k : α → Except Fault (β × Ctx)}
    (hk : ∀ a, o = some a → Fine c (k a)) : Fine c (need f o >>= k) := by
  cases o with
  | none => exact fine_err hf
  | some a => exact hk a rfl

section
variable {fns : List Fn} {body : Fn → Ctx → Except Fault (Option Vct × Ctx)} {n : Nat}

mutual
theorem inferEx_fine (hb : ∀ fn c, left fns c.opened < n → Fine c (body fn c)) : ∀ (e : Ex) (c : Ctx),
    left fns c.opened ≤ n → Fine c (inferEx fns body c e)
  | .num _ _, c, h => by simp only [inferEx]; exact fine_ok (List.Subset.refl _) _
  | .var _ m idx, c, h => by
    simp only [inferEx]
    refine fine_need (by decide) fun t _ => ?_
    split
    · exact fine_err (by decide)
    · exact fine_ok (List.Subset.refl _) _
  | .port _ _ _ _ _, c, h => by simp only [inferEx]; exact fine_err (by decide)
  | .bin _ _ _, c, h => by simp only [inferEx]; exact fine_ok (List.Subset.refl _) _
  | .un _ _, c, h => by simp only [inferEx]; exact fine_ok (List.Subset.refl _) _
  | .par _ a, c, h => by simp only [inferEx]; exact inferEx_fine hb a c h
  | .switch _ _ a b, c, h => by
    simp only [inferEx]
    refine fine_bind (inferEx_fine hb a c h) fun r d _ hd => ?_
    cases r with
    | none => exact inferEx_fine hb b d (Nat.le_trans (left_mono hd) h)
    | some t => exact fine_ok (List.Subset.refl _) _
  | .call _ f args, c, h => by
    simp only [inferEx]
    split
    · exact fine_ok (List.Subset.refl _) _
    · rename_i hf
      refine fine_need (by decide) fun fn hfn => ?_
      have hm := List.mem_of_find?_eq_some hfn
      have hn : fn.name = f := by simpa using List.find?_some hfn
      have hlt : left fns (f :: c.opened) < left fns c.opened := by
        rw [← hn]; exact left_lt hm (by rw [hn]; exact hf)
      refine ⟨?_, ?_⟩
      · intro x hx
        simp only [bind_err, Prod.exists] at hx
        have h1 := inferArgs_fine hb args ⟨c.env.push, f :: c.opened⟩ (by simp only; omega)
        rcases hx with hx | ⟨ts, d, hd, hx⟩
        · exact h1.1 x hx
        have hsub := h1.2 ts d hd
        cases ts with
        | none => simp at hx
        | some ts =>
          simp only [bind_err, need_err, need_ok, Prod.exists] at hx
          rcases hx with ⟨-, rfl⟩ | ⟨ps, -, hx | ⟨_, _, -, hx⟩⟩
          · rfl
          · exact (hb fn { d with env := ps.foldl (fun e p => e.add p.1 p.2) d.env }
              (Nat.lt_of_le_of_lt (left_mono hsub) (by simp only; omega))).1 x hx
          · simp at hx
      · intro r c' hr
        simp only [bind_ok, Prod.exists] at hr
        obtain ⟨ts, d, hd, hr⟩ := hr
        have h1 := inferArgs_fine hb args ⟨c.env.push, f :: c.opened⟩ (by simp only; omega)
        have hsub := h1.2 ts d hd
        have hsub' : c.opened ⊆ d.opened := (List.subset_cons_self f c.opened).trans hsub
        cases ts with
        | none =>
          simp only [Except.ok.injEq, Prod.mk.injEq] at hr
          rw [← hr.2]; exact hsub'
        | some ts =>
          simp only [bind_ok, need_ok, Prod.exists, Except.ok.injEq, Prod.mk.injEq] at hr
          obtain ⟨ps, -, r1, c1, h2, -, rfl⟩ := hr
          have h3 := (hb fn { d with env := ps.foldl (fun e p => e.add p.1 p.2) d.env }
            (Nat.lt_of_le_of_lt (left_mono hsub) (by simp only; omega))).2 r1 c1 h2
          intro g hg
          simp only [List.mem_filter, decide_eq_true_eq]
          exact ⟨h3 (hsub' hg), fun e => hf (e ▸ hg)⟩
  | .arr _ [], c, h => by simp only [inferEx]; exact fine_err (by decide)
  | .arr _ (v :: vs), c, h => by
    simp only [inferEx]
    refine fine_bind (inferEx_fine hb v c h) fun r d _ hd => ?_
    cases r with
    | none => exact fine_ok (List.Subset.refl _) _
    | some t =>
      refine fine_bind (inferWiden_fine hb vs d t (Nat.le_trans (left_mono hd) h)) fun r d' _ _ => ?_
      exact fine_ok (List.Subset.refl _) _
  | .uni _ v d, c, h => by
    simp only [inferEx]
    refine fine_need (by decide) fun k _ => ?_
    refine fine_bind (inferEx_fine hb v c h) fun r d' _ _ => ?_
    exact fine_ok (List.Subset.refl _) _

theorem inferArgs_fine (hb : ∀ fn c, left fns c.opened < n → Fine c (body fn c)) : ∀ (es : List Ex) (c : Ctx),
    left fns c.opened ≤ n → Fine c (inferArgs fns body c es)
  | [], c, h => by simp only [inferArgs]; exact fine_ok (List.Subset.refl _) _
  | e :: es, c, h => by
    simp only [inferArgs]
    refine fine_bind (inferEx_fine hb e c h) fun r d _ hd => ?_
    cases r with
    | none => exact fine_ok (List.Subset.refl _) _
    | some t =>
      refine fine_bind (inferArgs_fine hb es d (Nat.le_trans (left_mono hd) h)) fun r d' _ _ => ?_
      exact fine_ok (List.Subset.refl _) _

theorem inferWiden_fine (hb : ∀ fn c, left fns c.opened < n → Fine c (body fn c)) : ∀ (es : List Ex) (c : Ctx) (t : Vct),
    left fns c.opened ≤ n → Fine c (inferWiden fns body c t es)
  | [], c, t, h => by simp only [inferWiden]; exact fine_ok (List.Subset.refl _) _
  | e :: es, c, t, h => by
    simp only [inferWiden]
    refine fine_bind (inferEx_fine hb e c h) fun r d _ hd => ?_
    cases r with
    | none => exact fine_ok (List.Subset.refl _) _
    | some s =>
      refine fine_need (by decide) fun q _ => ?_
      exact inferWiden_fine hb es d q (Nat.le_trans (left_mono hd) h)
end

theorem inferInit_opened : ∀ (ss : List Stm) (c : Ctx), (inferInit c ss).opened = c.opened
  | [], c => rfl
  | s :: ss, c => by
    cases s <;> simp only [inferInit] <;> rw [inferInit_opened ss]

mutual
theorem inferSt_fine (hb : ∀ fn c, left fns c.opened < n → Fine c (body fn c)) : ∀ (s : Stm) (c : Ctx),
    left fns c.opened ≤ n → Fine c (inferSt fns body c s)
  | .ret e, c, h => by simp only [inferSt]; exact inferEx_fine hb e c h
  | .block ss, c, h => by
    simp only [inferSt]
    have h1 := inferSts_fine hb ss { c with env := c.env.push } none h
    have h2 : Fine c (inferSts fns body { c with env := c.env.push } none ss) := ⟨h1.1, h1.2⟩
    refine fine_bind h2 fun r d _ _ => ?_
    exact fine_ok (List.Subset.refl _) _
  | .init ss, c, h => by
    simp only [inferSt]
    exact fine_ok (by rw [inferInit_opened]; exact List.Subset.refl _) _
  | .ifThen _ a, c, h => by simp only [inferSt]; exact inferSt_fine hb a c h
  | .ifElse _ a b, c, h => by
    simp only [inferSt]
    refine fine_bind (inferSt_fine hb a c h) fun r d _ hd => ?_
    refine fine_bind (inferSt_fine hb b d (Nat.le_trans (left_mono hd) h)) fun r d' _ _ => ?_
    exact fine_ok (List.Subset.refl _) _
  | .loop _ s, c, h => by simp only [inferSt]; exact inferSt_fine hb s c h
  | .decl _ _ _, c, h => by simp only [inferSt]; exact fine_ok (List.Subset.refl _) _
  | .subst _ _ _, c, h => by simp only [inferSt]; exact fine_ok (List.Subset.refl _) _
  | .ceq _ _, c, h => by simp only [inferSt]; exact fine_ok (List.Subset.refl _) _
  | .log _, c, h => by simp only [inferSt]; exact fine_ok (List.Subset.refl _) _
  | .check _, c, h => by simp only [inferSt]; exact fine_ok (List.Subset.refl _) _
  | .under, c, h => by simp only [inferSt]; exact fine_err (by decide)

theorem inferSts_fine (hb : ∀ fn c, left fns c.opened < n → Fine c (body fn c)) : ∀ (ss : List Stm) (c : Ctx) (r : Option Vct),
    left fns c.opened ≤ n → Fine c (inferSts fns body c r ss)
  | [], c, r, h => by simp only [inferSts]; exact fine_ok (List.Subset.refl _) _
  | s :: ss, c, r, h => by
    simp only [inferSts]
    refine fine_bind (inferSt_fine hb s c h) fun q d _ hd => ?_
    exact inferSts_fine hb ss d (join r q) (Nat.le_trans (left_mono hd) h)
end
end

theorem inferBody_fine {fns : List Fn} : ∀ (n : Nat) (fn : Fn) (c : Ctx), left fns c.opened < n →
    Fine c (inferBody fns n fn c)
  | 0, fn, c, h => by omega
  | n + 1, fn, c, h => by
    simp only [inferBody]
    exact inferSt_fine (fun fn c h => inferBody_fine n fn c h) fn.body c (by omega)

theorem inferResult_ends (fns : List Fn) (fn : Fn) (ps : List (String × Vct)) :
    ∀ f, inferResult fns fn ps = .error f → f.bad = false := by
  have h := (inferSt_fine (fns := fns) (fun fn c h => inferBody_fine fns.length fn c h) fn.body
    ⟨Env.start [] ps, [fn.name]⟩ (List.length_filter_le _ _)).1
  intro f hf
  simp only [inferResult, bind_err, need_err, Prod.exists] at hf
  rcases hf with hf | ⟨_, _, _, -, rfl⟩
  · exact h f hf
  · rfl

end Verif.Inst
