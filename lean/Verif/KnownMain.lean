import Verif.KnownSound

/-!
Programs accepted by the known/unknown analysis.
-/

set_option linter.unusedSectionVars false
set_option linter.unusedSimpArgs false
set_option linter.unusedVariables false

namespace Verif.Known

open Verif.ModArith Verif.Algebra Verif.Exec Verif.Filters

/-- The variables of an expression. -/
def vars : LExpr → List Nat
  | .num _ _ | .sig _ _ => []
  | .var _ x => [x]
  | .bin _ _ l r => vars l ++ vars r
  | .un _ _ e => vars e
  | .ite _ c a b => vars c ++ (vars a ++ vars b)

/-- Every declaration of a variable is directly followed by an assignment to it that does not read
it. The second argument is the variable declared and not yet assigned before the statement, the
result that after the statement (`none` if the condition fails). -/
def pending : LStmt → Option Nat → Option (Option Nat)
  | .nil, p => some p
  | .cons a b, p => (pending a p).bind (pending b)
  | .decl _ x, none => some (some x)
  | .assign _ _ _, none => some none
  | .assign _ x e, some y => if x = y ∧ y ∉ vars e then some none else none
  | .sassign _ _ _, none | .cassign _ _ _, none | .check _ _ _, none => some none
  | .ifThen _ _ t, none => if pending t none = some none then some none else none
  | .ifElse _ _ t e, none =>
    if pending t none = some none ∧ pending e none = some none then some none else none
  | .while _ _ b, none => if pending b none = some none then some none else none
  | .block _ b, none => if pending b none = some none then some none else none
  | .init _ b, p => pending b p
  | _, some _ => none

/-- The variables assigned in a branch or loop body are assigned or declared in it outside of inner
loops. -/
def Tracked : LStmt → Prop
  | .cons a b => Tracked a ∧ Tracked b
  | .ifThen _ _ t => (∀ x ∈ assigned t, x ∈ outside t) ∧ Tracked t
  | .ifElse _ _ t e => (∀ x ∈ assigned t ++ assigned e, x ∈ outside t ++ outside e) ∧ Tracked t ∧ Tracked e
  | .while _ _ b => (∀ x ∈ assigned b, x ∈ outside b) ∧ Tracked b
  | .block _ b | .init _ b => Tracked b
  | _ => True

instance decTracked : (s : LStmt) → Decidable (Tracked s)
  | .nil | .decl _ _ | .assign _ _ _ | .sassign _ _ _ | .cassign _ _ _ | .check _ _ _ =>
    inferInstanceAs (Decidable True)
  | .cons a b =>
    have := decTracked a
    have := decTracked b
    inferInstanceAs (Decidable (_ ∧ _))
  | .ifThen _ _ t =>
    have := decTracked t
    inferInstanceAs (Decidable ((∀ x ∈ assigned t, x ∈ outside t) ∧ _))
  | .ifElse _ _ t e =>
    have := decTracked t
    have := decTracked e
    inferInstanceAs (Decidable ((∀ x ∈ assigned t ++ assigned e, x ∈ outside t ++ outside e) ∧ _ ∧ _))
  | .while _ _ b =>
    have := decTracked b
    inferInstanceAs (Decidable ((∀ x ∈ assigned b, x ∈ outside b) ∧ _))
  | .block _ b => decTracked b
  | .init _ b => decTracked b

/-- The analysis is right about the variables, `q` being declared and not yet assigned. -/
structure RelK (params : List Nat) (q : Option Nat) (te : TEnv) (env : List (List (Nat × V))) : Prop where
  shape : Shape te env
  num : ∀ i x t a v, cell te i x = some (t, a) → cell env i x = some v → (t = .known ∨ a = true) →
    (i = 0 ∧ q = some x) ∨ ∃ n, v = .number n
  flag : ∀ i x t, cell te i x = some (t, true) → x ∈ params
  here : ∀ x, q = some x → (cell te 0 x).isSome

variable {params : List Nat} {q : Option Nat} {te : TEnv} {env : List (List (Nat × V))}

theorem RelK.get (h : RelK params q te env) {x : Nat} (hx : q ≠ some x) {t : KTag} {a : Bool} {v : V}
    (ht : envGet te x = some (t, a)) (hv : envGet env x = some v) (hk : t = .known ∨ a = true) :
    ∃ n, v = .number n := by
  obtain ⟨i, h1, h2⟩ := envGet_some ht
  obtain ⟨j, h3, h4⟩ := envGet_some hv
  rw [← h.shape.place, h1] at h3
  injection h3 with h3
  subst h3
  rcases h.num i x t a v h2 h4 hk with ⟨_, h5⟩ | h5
  · exact absurd h5 hx
  · exact h5

theorem KTag.max_known {a b : KTag} : a.max b = .known ↔ a = .known ∧ b = .known := by
  cases a <;> cases b <;> simp [KTag.max]

theorem applyUOp_number (op : UOp) (n p : Int) : ∃ m, applyUOp op (.number n) p = .number m := by
  cases op <;> exact ⟨_, rfl⟩

theorem tag_sound {p : Nat} (hp : 0 < p) (h : RelK params q te env) {sigs : Nat → AState} :
    ∀ (e : LExpr), (∀ x ∈ vars e, q ≠ some x) → tag te e = .ok .known → ∀ v,
      eval p sigs env e.erase = .ok v → ∃ n, v = .number n
  | .num _ n, hq, ht, v, hv => by
    simp only [LExpr.erase, eval, Except.ok.injEq] at hv
    exact ⟨n, hv.symm⟩
  | .var _ x, hq, ht, v, hv => by
    simp only [tag] at ht
    simp only [LExpr.erase, eval] at hv
    split at hv
    · rename_i w hw
      injection hv with hv
      subst hv
      split at ht
      · cases ht
      · rename_i t a hg
        injection ht with ht
        refine h.get (hq x (by simp [vars])) hg hw ?_
        cases a with
        | true => exact .inr rfl
        | false => exact .inl (by simpa using ht)
    · cases hv
  | .sig _ s, hq, ht, v, hv => by simp [tag] at ht
  | .bin _ op l r, hq, ht, v, hv => by
    simp only [tag] at ht
    simp only [LExpr.erase, eval] at hv
    split at ht
    · cases ht
    · rename_i tl htl
      split at ht
      · cases ht
      · rename_i tr htr
        injection ht with ht
        obtain ⟨rfl, rfl⟩ := KTag.max_known.1 ht
        split at hv
        · cases hv
        · rename_i vl hvl
          split at hv
          · cases hv
          · rename_i vr hvr
            obtain ⟨nl, rfl⟩ := tag_sound hp h l (fun x hx => hq x (List.mem_append_left _ hx)) htl vl hvl
            obtain ⟨nr, rfl⟩ := tag_sound hp h r (fun x hx => hq x (List.mem_append_right _ hx)) htr vr hvr
            split at hv
            · cases hv
            · rename_i w hw
              injection hv with hv
              subst hv
              obtain ⟨c, hc, _⟩ := applyOp_numbers hp op hw
              exact ⟨c, hc⟩
  | .un _ op e, hq, ht, v, hv => by
    simp only [tag] at ht
    simp only [LExpr.erase, eval] at hv
    split at hv
    · cases hv
    · rename_i w hw
      injection hv with hv
      subst hv
      obtain ⟨n, rfl⟩ := tag_sound hp h e hq ht w hw
      exact applyUOp_number op n p
  | .ite _ c a b, hq, ht, v, hv => by
    simp only [tag] at ht
    simp only [LExpr.erase, eval] at hv
    split at ht
    · cases ht
    · rename_i tc htc
      split at ht
      · cases ht
      · rename_i ta hta
        split at ht
        · cases ht
        · rename_i tb htb
          injection ht with ht
          obtain ⟨rfl, ht'⟩ := KTag.max_known.1 ht
          obtain ⟨rfl, rfl⟩ := KTag.max_known.1 ht'
          split at hv
          · cases hv
          · rename_i vc hvc
            obtain ⟨nc, rfl⟩ := tag_sound hp h c (fun x hx => hq x (List.mem_append_left _ hx)) htc vc hvc
            simp only [getBool] at hv
            split at hv
            · exact tag_sound hp h a (fun x hx => hq x (List.mem_append_right _ (List.mem_append_left _ hx)))
                hta v hv
            · exact tag_sound hp h b (fun x hx => hq x (List.mem_append_right _ (List.mem_append_right _ hx)))
                htb v hv
            · rename_i hb
              cases hb

/-- Weaker knowledge. -/
theorem RelK.weaken (h : RelK params none te env) {te' : TEnv} (ho : Off (Chg []) te te') :
    RelK params none te' env := by
  refine ⟨ho.shape.trans h.shape, ?_, ?_, fun x hx => by cases hx⟩
  · intro i x t a v h1 h2 h3
    rcases ho.2 i x with k | ⟨_, u, w, k2, k3, k4⟩
    · exact h.num i x t a v (by rw [← k]; exact h1) h2 h3
    · rw [h1] at k3
      injection k3 with k3
      subst k3
      obtain ⟨g1, g2 | g2⟩ := k4
      · cases g2
      · simp only at g1 g2
        rcases h3 with h3 | h3
        · rw [h3] at g2; cases g2
        · subst h3
          refine h.num i x u.1 u.2 v (by rw [k2]) h2 (.inr g1)
  · intro i x t h1
    rcases ho.2 i x with k | ⟨_, u, w, k2, k3, k4⟩
    · exact h.flag i x t (by rw [← k]; exact h1)
    · rw [h1] at k3
      injection k3 with k3
      subst k3
      exact h.flag i x u.1 (by rw [k2]; obtain ⟨g, _⟩ := k4; simp only at g; rw [← g])

/-- Variables that are not assigned keep their state; for the others the analysis has to be right. -/
theorem RelK.update {P : List Nat} (hP : ∀ x ∈ P, x ∉ params) {te' : TEnv} {env' : List (List (Nat × V))}
    (h : RelK params none te env) (ho : Off (Chg P) te te') (he : Off (fun x _ _ => x ∈ P) env env')
    (hn : ∀ i x t v, x ∈ P → place te x = some i → cell te' i x = some (t, false) → cell env' i x = some v →
      cell env' i x ≠ cell env i x → t = .known → ∃ n, v = .number n)
    (hn' : ∀ i x a, x ∈ P → place te x = some i → cell te i x = some (.unknown, a) →
      cell te' i x = some (.known, a) → ∀ v, cell env' i x = some v → ∃ n, v = .number n) :
    RelK params none te' env' := by
  refine ⟨(ho.shape.trans h.shape).trans he.shape.symm, ?_, ?_, fun x hx => by cases hx⟩
  · intro i x t a v h1 h2 h3
    right
    -- the entry before
    have hw : ∃ t0, cell te i x = some (t0, a) ∧ (t0 = t ∨ (place te x = some i ∧ (x ∈ P ∨ t = .unknown))) := by
      rcases ho.2 i x with k | ⟨k1, u, w, k2, k3, k4⟩
      · exact ⟨t, by rw [← k]; exact h1, .inl rfl⟩
      · rw [h1] at k3
        injection k3 with k3
        subst k3
        exact ⟨u.1, by rw [k2]; obtain ⟨g, _⟩ := k4; simp only at g; rw [← g], .inr ⟨k1, k4.2⟩⟩
    obtain ⟨t0, hw, hw'⟩ := hw
    -- an unchanged variable
    have same : cell env' i x = cell env i x → (t0 = .known ∨ a = true) → ∃ n, v = .number n := by
      intro k hk
      rcases h.num i x t0 a v hw (by rw [← k]; exact h2) hk with ⟨_, g⟩ | g
      · cases g
      · exact g
    cases ha : a with
    | true =>
      subst ha
      have hpar := h.flag i x t0 hw
      refine same ?_ (.inr rfl)
      rcases he.2 i x with k | ⟨_, u, w, _, _, k4⟩
      · exact k
      · exact absurd hpar (hP x k4)
    | false =>
      subst ha
      have ht : t = .known := by
        rcases h3 with h3 | h3
        · exact h3
        · cases h3
      by_cases hc : cell env' i x = cell env i x
      · cases ht0 : t0 with
        | known => exact same hc (.inl ht0)
        | unknown =>
          subst ht0
          rcases hw' with k | ⟨k1, k | k⟩
          · rw [← k] at ht; cases ht
          · exact hn' i x false k k1 hw (by rw [h1, ht]) v h2
          · rw [ht] at k; cases k
      · rcases he.2 i x with k | ⟨k0, u, w, _, _, k4⟩
        · exact absurd k hc
        · exact hn i x t v k4 (by rw [h.shape.place]; exact k0) h1 h2 hc ht
  · intro i x t h1
    rcases ho.2 i x with k | ⟨_, u, w, k2, k3, k4⟩
    · exact h.flag i x t (by rw [← k]; exact h1)
    · rw [h1] at k3
      injection k3 with k3
      subst k3
      exact h.flag i x u.1 (by rw [k2]; obtain ⟨g, _⟩ := k4; simp only at g; rw [← g])

/-- After a conditional or loop whose variables have all become unknown. -/
theorem RelK.forget {P L : List Nat} (hP : ∀ x ∈ P, x ∉ params) (hL : ∀ x ∈ P, x ∈ L) {te' : TEnv}
    {env' : List (List (Nat × V))}
    (h : RelK params none te env) (ho : Off (Chg P) te te') (he : Off (fun x _ _ => x ∈ P) env env') :
    RelK params none (forget L te') env' := by
  have key : ∀ i x t a, x ∈ P → place te x = some i → cell (Known.forget L te') i x = some (t, a) →
      t = .unknown := by
    intro i x t a hx hp hc
    rw [(forget_spec L te').2, if_pos ⟨hL x hx, by rw [ho.shape.place]; exact hp⟩,
      Option.map_eq_some_iff] at hc
    obtain ⟨u, _, hu⟩ := hc
    injection hu with hu1 hu2
    exact hu1.symm
  refine h.update hP (ho.trans Chg.trans (Off.forget _)) he ?_ ?_
  · intro i x t v hx hp hc _ _ hk
    have := key i x t false hx hp hc
    rw [hk] at this
    cases this
  · intro i x a hx hp _ hc
    have := key i x .known a hx hp hc
    cases this

/-- Joining with another branch. -/
theorem RelK.merge_left {te' : TEnv} (h : RelK params none te env) (hs : Shape te te')
    (hf : ∀ i x u v, cell te i x = some u → cell te' i x = some v → u.2 = v.2) :
    RelK params none (merge te te') env := by
  obtain ⟨h1, h2⟩ := merge_spec te te' hs
  have key : ∀ i x t a, cell (merge te te') i x = some (t, a) → ∃ t0, cell te i x = some (t0, a) ∧
      (t = .known → t0 = .known) := by
    intro i x t a hc
    rw [h2] at hc
    split at hc
    · rename_i u v hu hv
      have e := hf i x u v hu hv
      injection hc with hc
      have e1 : (tmax u v).1 = t := by rw [hc]
      have e2 : (tmax u v).2 = a := by rw [hc]
      rw [tmax_flag e] at e2
      refine ⟨u.1, by rw [hu, ← e2], fun ht => ?_⟩
      rw [ht] at e1
      exact (tmax_known.1 e1).1
    · cases hc
  refine ⟨(merge_shape hs).trans h.shape, ?_, ?_, fun x hx => by cases hx⟩
  · intro i x t a v hc hv hk
    obtain ⟨t0, g1, g2⟩ := key i x t a hc
    exact h.num i x t0 a v g1 hv (hk.imp_left g2)
  · intro i x t hc
    obtain ⟨t0, g1, _⟩ := key i x t true hc
    exact h.flag i x t0 g1

theorem RelK.merge_right {te' : TEnv} (h : RelK params none te' env) (hs : Shape te te')
    (hf : ∀ i x u v, cell te i x = some u → cell te' i x = some v → u.2 = v.2) :
    RelK params none (merge te te') env := by
  obtain ⟨h1, h2⟩ := merge_spec te te' hs
  have key : ∀ i x t a, cell (merge te te') i x = some (t, a) → ∃ t0, cell te' i x = some (t0, a) ∧
      (t = .known → t0 = .known) := by
    intro i x t a hc
    rw [h2] at hc
    split at hc
    · rename_i u v hu hv
      have e := hf i x u v hu hv
      injection hc with hc
      have e1 : (tmax u v).1 = t := by rw [hc]
      have e2 : (tmax u v).2 = a := by rw [hc]
      rw [tmax_flag e, e] at e2
      refine ⟨v.1, by rw [hv, ← e2], fun ht => ?_⟩
      rw [ht] at e1
      exact (tmax_known.1 e1).2
    · cases hc
  refine ⟨((merge_shape hs).trans hs).trans h.shape, ?_, ?_, fun x hx => by cases hx⟩
  · intro i x t a v hc hv hk
    obtain ⟨t0, g1, g2⟩ := key i x t a hc
    exact h.num i x t0 a v g1 hv (hk.imp_left g2)
  · intro i x t hc
    obtain ⟨t0, g1, _⟩ := key i x t true hc
    exact h.flag i x t0 g1

/-- The environments of two branches mark the same variables as arrays. -/
theorem flags_eq {P Q : List Nat} {A B C : TEnv} (hB : Off (Chg P) A B) (hC : Off (Chg Q) A C) :
    ∀ i x u v, cell B i x = some u → cell C i x = some v → u.2 = v.2 := by
  intro i x u v hu hv
  have e1 : ∃ w, cell A i x = some w ∧ w.2 = u.2 := by
    rcases hB.2 i x with k | ⟨_, a, b, k2, k3, k4⟩
    · exact ⟨u, by rw [← k]; exact hu, rfl⟩
    · rw [hu] at k3
      injection k3 with k3
      subst k3
      exact ⟨a, k2, k4.1⟩
  have e2 : ∃ w, cell A i x = some w ∧ w.2 = v.2 := by
    rcases hC.2 i x with k | ⟨_, a, b, k2, k3, k4⟩
    · exact ⟨v, by rw [← k]; exact hv, rfl⟩
    · rw [hv] at k3
      injection k3 with k3
      subst k3
      exact ⟨a, k2, k4.1⟩
  obtain ⟨w, h1, h2⟩ := e1
  obtain ⟨w', h3, h4⟩ := e2
  rw [h1] at h3
  injection h3 with h3
  subst h3
  exact h2.symm.trans h4

/-! ### Loops -/

/-- The last pass over a loop: the state in which it starts is weaker than the first one, and not
weakened by the pass on the variables assigned. -/
theorem fixpoint_last {P : List Nat} {L : List Nat} (hPL : ∀ x ∈ P, x ∈ L) {body : TEnv → Except KErr Exit}
    (hb : ∀ A x, body A = .ok x → Off (Chg P) A x.env ∧ x.modified = L) : ∀ (n : Nat) (A : TEnv) (x : Exit),
    fixpoint body n A = .ok x → ∃ A' y, Off (Chg []) A A' ∧ body A' = .ok y ∧ x = { y with env := x.env } ∧
      Off (Chg []) A' x.env ∧ Off (Chg P) A' y.env ∧
      (∀ i z ti tf, z ∈ P → place A' z = some i → cell A' i z = some ti → cell y.env i z = some tf →
        ti ≠ tf → tf.1 = .known)
  | 0, A, x, h => by simp [Known.fixpoint] at h
  | n + 1, A, x, h => by
    rw [Known.fixpoint] at h
    split at h
    · cases h
    · rename_i ex hex
      obtain ⟨ho, hm⟩ := hb _ _ hex
      obtain ⟨c1, c2, c3, c4⟩ := checkModified_spec ex.modified A ex.env ho.shape.symm
      rw [hm] at c1 c2 c3 c4 h
      -- joined with the state before, variables can only become unknown
      have hw : Off (Chg []) A (Known.checkModified A L ex.env).2 := by
        refine ⟨c1.trans ho.1, fun i z => ?_⟩
        rcases ho.2 i z with k | ⟨k1, u, v, k2, k3, k4⟩
        · left
          cases hc : cell A i z with
          | none => exact c3 i z hc
          | some u =>
            rw [c2 i z u u hc (by rw [k]; exact hc)]
            simp [tmax_self]
        · have e := c2 i z u v k2 k3
          rcases k4.2 with hz | hz
          · rw [if_pos ⟨hPL z hz, k1⟩] at e
            cases hr : (tmax u v).1 with
            | known =>
              left
              rw [e, k2, tmax_first k4.1 (fun _ => (tmax_known.1 hr).2)]
            | unknown =>
              right
              exact ⟨k1, u, tmax u v, k2, e, (tmax_flag k4.1).symm, .inr hr⟩
          · right
            refine ⟨k1, u, _, k2, e, ?_⟩
            split
            · refine ⟨(tmax_flag k4.1).symm, .inr ?_⟩
              rw [← KTag.not_known, ne_eq, tmax_known, not_and]
              intro _ e
              rw [hz] at e
              cases e
            · exact ⟨k4.1, .inr hz⟩
      split at h
      · rename_i env' hc
        rw [hc] at hw
        obtain ⟨A', y, g1, g2⟩ := fixpoint_last hPL hb n _ _ h
        exact ⟨A', y, hw.trans Chg.trans g1, g2⟩
      · rename_i env' hc
        rw [hc] at hw c4
        injection h with h
        subst h
        refine ⟨A, ex, Off.refl _, hex, by simp [hm], hw, ho, ?_⟩
        exact fun i z ti tf hz => (c4.1 rfl) i z ti tf (hPL z hz)

/-- Loops whose condition is known in every iteration. -/
theorem whileLoop_inv {p : Int} {c : Expr} {body : St → Ex (St × Option V)} {I : St → Prop}
    (hc : ∀ st v, I st → eval p st.sigs st.env c = .ok v → ∃ n, v = .number n)
    (hb : ∀ st, I st → body st ≠ .error .constraintInUnknown ∧ ∀ st' r, body st = .ok (st', r) →
      r = none ∧ I st')
    (he : ∀ st, I st → I (endIteration st)) : ∀ (fuel : Nat) (st : St), I st →
    whileLoop (conditional p c body none) fuel st ≠ .error .constraintInUnknown ∧
    ∀ st' r, whileLoop (conditional p c body none) fuel st = .ok (st', r) → I st'
  | 0, st, hi => by simp [whileLoop]
  | fuel + 1, st, hi => by
    rw [whileLoop]
    cases hs : conditional p c body none st with
    | error er =>
      simp only
      refine ⟨fun h => ?_, fun st' r h => by cases h⟩
      injection h with h
      subst h
      unfold conditional at hs
      split at hs
      · rename_i er her
        injection hs with hs
        subst hs
        exact eval_free c her
      · rename_i vc hvc
        obtain ⟨n, rfl⟩ := hc st vc hi hvc
        simp only [getBool] at hs
        split at hs
        · split at hs
          · rename_i er her
            injection hs with hs
            subst hs
            exact (hb st hi).1 her
          · cases hs
        · cases hs
        · rename_i hn; cases hn
    | ok res =>
      obtain ⟨st1, r1, cr⟩ := res
      obtain ⟨vc, hvc, hcase⟩ := conditional_cases hs
      obtain ⟨n, rfl⟩ := hc st vc hi hvc
      rcases hcase with ⟨_, rfl, h1⟩ | ⟨_, rfl, _, rfl, rfl⟩ | ⟨f, _, _, hf, _⟩ | ⟨hn, _⟩ | ⟨f, _, _, _, _, _, hn, _⟩
      · obtain ⟨rfl, hi1⟩ := (hb st hi).2 _ _ h1
        exact whileLoop_inv hc hb he fuel _ (he _ hi1)
      · refine ⟨by simp, fun st' r h => ?_⟩
        simp only [Except.ok.injEq, Prod.mk.injEq] at h
        obtain ⟨rfl, _⟩ := h
        exact hi
      · cases hf
      · simp [getBool] at hn
      · simp [getBool] at hn

/-! ### The main induction -/

theorem exec_novalue {fuel : Nat} {p : Int} {s : LStmt} {st st' : St} {r : Option V}
    (h : exec fuel p s.erase st = .ok (st', r)) : r = none := by
  rw [execV_proj] at h
  cases he : execV fuel p s st with
  | error e => rw [he] at h; cases h
  | ok x =>
    rw [he] at h
    simp only [Except.map, Except.ok.injEq, Prod.mk.injEq] at h
    exact h.2.symm

theorem RelK.push (h : RelK params none te env) : RelK params none ([] :: te) ([] :: env) := by
  refine ⟨⟨by simp [h.shape.1], fun i x => ?_⟩, ?_, ?_, fun x hx => by cases hx⟩
  · cases i with
    | zero => simp [blockGet]
    | succ i => simpa using h.shape.2 i x
  · intro i x t a v h1 h2 h3
    cases i with
    | zero => simp [blockGet] at h1
    | succ i =>
      rcases h.num i x t a v (by simpa using h1) (by simpa using h2) h3 with ⟨_, g⟩ | g
      · cases g
      · exact .inr g
  · intro i x t h1
    cases i with
    | zero => simp [blockGet] at h1
    | succ i => exact h.flag i x t (by simpa using h1)

theorem RelK.tail (h : RelK params none te env) : RelK params none te.tail env.tail := by
  refine ⟨h.shape.tail, ?_, ?_, fun x hx => by cases hx⟩
  · intro i x t a v h1 h2 h3
    rw [cell_tail] at h1 h2
    rcases h.num _ x t a v h1 h2 h3 with ⟨_, g⟩ | g
    · cases g
    · exact .inr g
  · intro i x t h1
    rw [cell_tail] at h1
    exact h.flag _ x t h1

theorem RelK.add (h : RelK params none te env) {x : Nat} {v : V} {te' : TEnv}
    {env' : List (List (Nat × V))} (h1 : envAdd te x (.known, false) = some te')
    (h2 : envAdd env x v = some env') : RelK params (some x) te' env' := by
  cases te with
  | nil => simp [envAdd] at h1
  | cons b bs =>
    cases env with
    | nil => simp [envAdd] at h2
    | cons c cs =>
      simp only [envAdd, Option.some.injEq] at h1 h2
      subst h1; subst h2
      have hl := h.shape.1
      refine ⟨⟨by simpa using hl, fun i y => ?_⟩, ?_, ?_, ?_⟩
      · have := h.shape.2 i y
        cases i with
        | zero =>
          simp only [cell_zero, blockGet] at this ⊢
          split
          · rfl
          · exact this
        | succ i => simpa using this
      · intro i y t a w g1 g2 g3
        by_cases hy : i = 0 ∧ x = y
        · exact .inl ⟨hy.1, by rw [hy.2]⟩
        · right
          have e1 : cell (b :: bs) i y = some (t, a) := by
            cases i with
            | zero =>
              simp only [cell_zero, blockGet] at g1 ⊢
              rwa [if_neg (fun e => hy ⟨rfl, e⟩)] at g1
            | succ i => simpa using g1
          have e2 : cell (c :: cs) i y = some w := by
            cases i with
            | zero =>
              simp only [cell_zero, blockGet] at g2 ⊢
              rwa [if_neg (fun e => hy ⟨rfl, e⟩)] at g2
            | succ i => simpa using g2
          rcases h.num i y t a w e1 e2 g3 with ⟨_, g⟩ | g
          · cases g
          · exact g
      · intro i y t g1
        cases i with
        | zero =>
          simp only [cell_zero, blockGet] at g1
          split at g1
          · cases g1
          · exact h.flag 0 y t g1
        | succ i => exact h.flag (i + 1) y t (by simpa using g1)
      · intro y hy
        injection hy with hy
        subst hy
        simp [blockGet]

theorem RelK.assign (h : RelK params q te env) {x : Nat} (hx : x ∉ params) (hq : q = none ∨ q = some x)
    {t old : KTag} {a : Bool} {v : V} {te' : TEnv} {env' : List (List (Nat × V))}
    (hg : envGet te x = some (old, a))
    (h1 : envSet te x (if !a || decide (old = .known) then t else old, a) = some te')
    (h2 : envSet env x v = some env') (hv : t = .known → ∃ n, v = .number n) :
    RelK params none te' env' := by
  obtain ⟨i, hp, hc⟩ := envGet_some hg
  have ha : a = false := by
    cases a with
    | false => rfl
    | true => exact absurd (h.flag i x old hc) hx
  subst ha
  simp only [Bool.not_false, Bool.true_or, if_true] at h1
  obtain ⟨i', k1, k2, k3⟩ := envSet_cell h1
  obtain ⟨j, l1, l2, l3⟩ := envSet_cell h2
  rw [hp] at k1
  injection k1 with k1
  subst k1
  rw [← h.shape.place, hp] at l1
  injection l1 with l1
  subst l1
  refine ⟨⟨by rw [k2, l2]; exact h.shape.1, fun j y => ?_⟩, ?_, ?_, fun x hx => by cases hx⟩
  · rw [k3, l3]
    split
    · rfl
    · exact h.shape.2 j y
  · intro j y t' a' w g1 g2 g3
    right
    rw [k3] at g1
    rw [l3] at g2
    by_cases hy : j = i ∧ y = x
    · rw [if_pos hy] at g1 g2
      injection g1 with g1
      injection g1 with g1 g1'
      injection g2 with g2
      subst g2
      rw [← g1, ← g1'] at g3
      rcases g3 with g3 | g3
      · exact hv g3
      · cases g3
    · rw [if_neg hy] at g1 g2
      rcases h.num j y t' a' w g1 g2 g3 with ⟨e1, e2⟩ | e
      · exfalso
        rcases hq with hq | hq
        · rw [hq] at e2; cases e2
        · rw [hq] at e2
          injection e2 with e2
          subst e2
          subst e1
          have := h.here x hq
          refine hy ⟨?_, rfl⟩
          -- declared in the innermost block
          cases te with
          | nil => simp at this
          | cons b bs =>
            rw [place, if_pos (by simpa using this)] at hp
            injection hp
      · exact e
  · intro j y t' g1
    rw [k3] at g1
    split at g1
    · cases g1
    · exact h.flag j y t' g1

/-- One conditional with a known condition. -/
theorem conditional_known {p : Int} {c : Expr} {t : St → Ex (St × Option V)}
    {e : Option (St → Ex (St × Option V))} {st : St}
    (hc : ∀ v, eval p st.sigs st.env c = .ok v → ∃ n, v = .number n)
    (ht : t st ≠ .error .constraintInUnknown)
    (he : ∀ f, e = some f → f st ≠ .error .constraintInUnknown) :
    conditional p c t e st ≠ .error .constraintInUnknown ∧ ∀ st' r cr,
      conditional p c t e st = .ok (st', r, cr) →
      t st = .ok (st', r) ∨ (e = none ∧ st' = st) ∨ ∃ f, e = some f ∧ f st = .ok (st', r) := by
  constructor
  · intro hs
    unfold conditional at hs
    split at hs
    · rename_i er her
      injection hs with hs
      subst hs
      exact eval_free c her
    · rename_i vc hvc
      obtain ⟨n, rfl⟩ := hc vc hvc
      simp only [getBool] at hs
      split at hs
      · split at hs
        · rename_i er her
          injection hs with hs
          subst hs
          exact ht her
        · cases hs
      · split at hs
        · cases hs
        · rename_i f
          split at hs
          · rename_i er her
            injection hs with hs
            subst hs
            exact he f rfl her
          · cases hs
      · rename_i hn; cases hn
  · intro st' r cr hs
    obtain ⟨vc, hvc, hcase⟩ := conditional_cases hs
    obtain ⟨n, rfl⟩ := hc vc hvc
    rcases hcase with ⟨_, _, h1⟩ | ⟨_, _, h1, h2, _⟩ | ⟨f, _, _, hf, h1⟩ | ⟨hn, _⟩ | ⟨f, _, _, _, _, _, hn, _⟩
    · exact .inl h1
    · exact .inr (.inl ⟨h1, h2⟩)
    · exact .inr (.inr ⟨f, hf, h1⟩)
    · simp [getBool] at hn
    · simp [getBool] at hn

/-- The claim for one statement. -/
def Sound (fuel p : Nat) (params : List Nat) (s : LStmt) (q q' : Option Nat) : Prop :=
  ∀ (te : TEnv) (x : Exit) (st : St), analyze s te = .ok x → x.reports = [] → st.unknown = false →
    RelK params q te st.env →
    exec fuel p s.erase st ≠ .error .constraintInUnknown ∧
    ∀ st' r, exec fuel p s.erase st = .ok (st', r) → RelK params q' x.env st'.env

theorem sound_if {fuel p : Nat} (hp : 0 < p) {i : Nat} {c : LExpr} {t : LStmt}
    (hs : t.erase.Scoped false) (hpar : ∀ x ∈ assigned t, x ∉ params)
    (htr : ∀ x ∈ assigned t, x ∈ outside t) (ih : Sound fuel p params t none none) :
    Sound fuel p params (.ifThen i c t) none none := by
  intro te x st ha hr hu hR
  simp only [analyze] at ha
  simp only [LStmt.erase, exec]
  split at ha
  · cases ha
  · rename_i tc htc
    split at ha
    · cases ha
    · rename_i y hy
      have ho := (analyze_off t false hs _ _ hy).2.2 rfl
      split at ha
      · injection ha with ha
        subst ha
        obtain ⟨i1, i2⟩ := ih te y st hy hr hu hR
        obtain ⟨k1, k2⟩ := conditional_known (p := p) (c := c.erase) (t := exec fuel p t.erase) (e := none) (st := st)
          (fun v hv => tag_sound hp hR c (fun _ _ h => by cases h) htc v hv) i1 (fun f hf => by cases hf)
        constructor
        · intro h
          split at h
          · rename_i er her
            injection h with h
            subst h
            exact k1 her
          · cases h
        · intro st' r h
          split at h
          · cases h
          · rename_i h1
            simp only [Except.ok.injEq, Prod.mk.injEq] at h
            obtain ⟨rfl, _⟩ := h
            rcases k2 _ _ _ h1 with g | ⟨_, rfl⟩ | ⟨f, hf, _⟩
            · exact (i2 _ _ g).merge_left ho.shape (flags_eq ho (Off.refl (ρ := Chg []) _))
            · exact hR.merge_right ho.shape (flags_eq ho (Off.refl (ρ := Chg []) _))
            · cases hf
      · injection ha with ha
        subst ha
        obtain ⟨m1, m2⟩ := analyze_modified t _ _ hy
        have hfree : Free t := by
          apply m2
          simp only [List.append_eq_nil_iff] at hr
          obtain ⟨_, hr⟩ := hr
          cases hcs : y.constraints with
          | false => rfl
          | true => rw [hcs] at hr; cases hr
        constructor
        · intro h
          split at h
          · rename_i er her
            injection h with h
            subst h
            exact conditional_free (exec_free fuel p t hfree) (fun f hf => by cases hf)
              (fun st => eval_free _) st her
          · cases h
        · intro st' r h
          split at h
          · cases h
          · rename_i h1
            simp only [Except.ok.injEq, Prod.mk.injEq] at h
            obtain ⟨rfl, _⟩ := h
            have he := conditional_env (R := Off (fun z _ _ => z ∈ assigned t)) Off.refl
              (fun _ _ _ => Off.trans (fun _ _ _ _ h _ => h))
              (fun st st' r h => (exec_off fuel p t false hs st st' r h).2.2 rfl)
              (by intro f hf; cases hf) h1
            simp only [m1]
            exact hR.forget hpar htr (Off.merge ho (Off.refl _)) he

theorem sound_ifElse {fuel p : Nat} (hp : 0 < p) {i : Nat} {c : LExpr} {t e : LStmt}
    (hs : t.erase.Scoped false) (hs' : e.erase.Scoped false)
    (hpar : ∀ x ∈ assigned t ++ assigned e, x ∉ params)
    (htr : ∀ x ∈ assigned t ++ assigned e, x ∈ outside t ++ outside e)
    (ih : Sound fuel p params t none none) (ih' : Sound fuel p params e none none) :
    Sound fuel p params (.ifElse i c t e) none none := by
  intro te x st ha hr hu hR
  simp only [analyze] at ha
  simp only [LStmt.erase, exec]
  split at ha
  · cases ha
  · rename_i tc htc
    split at ha
    · cases ha
    · rename_i y hy
      split at ha
      · cases ha
      · rename_i z hz
        have ho := (analyze_off t false hs _ _ hy).2.2 rfl
        have ho' := (analyze_off e false hs' _ _ hz).2.2 rfl
        have hsh : Shape y.env z.env := ho.shape.trans ho'.shape.symm
        split at ha
        · injection ha with ha
          subst ha
          simp only [List.append_eq_nil_iff] at hr
          obtain ⟨i1, i2⟩ := ih te y st hy hr.1 hu hR
          obtain ⟨j1, j2⟩ := ih' te z st hz hr.2 hu hR
          obtain ⟨k1, k2⟩ := conditional_known (p := p) (c := c.erase) (t := exec fuel p t.erase)
            (e := some (exec fuel p e.erase)) (st := st)
            (fun v hv => tag_sound hp hR c (fun _ _ h => by cases h) htc v hv) i1
            (fun f hf => by injection hf with hf; subst hf; exact j1)
          constructor
          · intro h
            split at h
            · rename_i er her
              injection h with h
              subst h
              exact k1 her
            · cases h
          · intro st' r h
            split at h
            · cases h
            · rename_i h1
              simp only [Except.ok.injEq, Prod.mk.injEq] at h
              obtain ⟨rfl, _⟩ := h
              rcases k2 _ _ _ h1 with g | ⟨g, _⟩ | ⟨f, hf, g⟩
              · exact (i2 _ _ g).merge_left hsh (flags_eq ho ho')
              · cases g
              · injection hf with hf
                subst hf
                exact (j2 _ _ g).merge_right hsh (flags_eq ho ho')
        · injection ha with ha
          subst ha
          obtain ⟨m1, m2⟩ := analyze_modified t _ _ hy
          obtain ⟨m1', m2'⟩ := analyze_modified e _ _ hz
          have hcs : (z.constraints || y.constraints) = false := by
            simp only [List.append_eq_nil_iff] at hr
            obtain ⟨_, hr⟩ := hr
            cases hcs : (z.constraints || y.constraints) with
            | false => rfl
            | true => rw [hcs] at hr; cases hr
          simp only [Bool.or_eq_false_iff] at hcs
          have hfree := m2 hcs.2
          have hfree' := m2' hcs.1
          constructor
          · intro h
            split at h
            · rename_i er her
              injection h with h
              subst h
              exact conditional_free (exec_free fuel p t hfree)
                (fun f hf => by injection hf with hf; subst hf; exact exec_free fuel p e hfree')
                (fun st => eval_free _) st her
            · cases h
          · intro st' r h
            split at h
            · cases h
            · rename_i h1
              simp only [Except.ok.injEq, Prod.mk.injEq] at h
              obtain ⟨rfl, _⟩ := h
              have he := conditional_env (R := Off (fun z _ _ => z ∈ assigned t ++ assigned e)) Off.refl
                (fun _ _ _ => Off.trans (fun _ _ _ _ h _ => h))
                (fun st st' r h => ((exec_off fuel p t false hs st st' r h).2.2 rfl).mono
                  (fun z _ _ hz => List.mem_append_left _ hz))
                (by
                  intro f hf
                  injection hf with hf
                  subst hf
                  exact fun st st' r h => ((exec_off fuel p e false hs' st st' r h).2.2 rfl).mono
                    (fun z _ _ hz => List.mem_append_right _ hz)) h1
              simp only [m1, m1']
              exact hR.forget hpar htr (Off.merge
                (ho.mono (Chg.mono fun z hz => List.mem_append_left _ hz))
                (ho'.mono (Chg.mono fun z hz => List.mem_append_right _ hz))) he

theorem sound_while {fuel p : Nat} (hp : 0 < p) {i : Nat} {c : LExpr} {b : LStmt}
    (hs : b.erase.Scoped false) (hpar : ∀ x ∈ assigned b, x ∉ params)
    (htr : ∀ x ∈ assigned b, x ∈ outside b) (ih : Sound fuel p params b none none) :
    Sound fuel p params (.while i c b) none none := by
  intro te x st ha hr hu hR
  simp only [analyze] at ha
  simp only [LStmt.erase, exec]
  split at ha
  · cases ha
  · rename_i z hz
    obtain ⟨te', y, f1, f2, f3, f4, f5, f6⟩ := fixpoint_last (L := outside b) htr
      (fun A x h => ⟨(analyze_off b false hs A x h).2.2 rfl, (analyze_modified b A x h).1⟩) _ _ _ hz
    obtain ⟨m1, m2⟩ := analyze_modified b _ _ f2
    split at ha
    · cases ha
    · rename_i hc
      injection ha with ha
      subst ha
      have hyr : y.reports = [] := by rw [f3] at hr; exact hr
      -- the invariant
      have hR' : RelK params none te' st.env := hR.weaken f1
      obtain ⟨k1, k2⟩ := whileLoop_inv (p := p) (c := c.erase) (body := exec fuel p b.erase)
        (I := fun s => s.unknown = false ∧ RelK params none te' s.env)
        (fun s v hI hv => tag_sound hp (hI.2.weaken f4) c (fun _ _ h => by cases h) hc v hv)
        (fun s hI => by
          obtain ⟨i1, i2⟩ := ih te' y s f2 hyr hI.1 hI.2
          refine ⟨i1, fun s' r h => ⟨exec_novalue h, ?_, ?_⟩⟩
          · rw [exec_unknown _ _ _ _ _ _ h]; exact hI.1
          · have hy := i2 s' r h
            have he := (exec_off fuel p b false hs s s' r h).2.2 rfl
            refine hI.2.update hpar (Off.refl _) he ?_ ?_
            · intro j w t v hw hpl hct hcv _ hk
              obtain ⟨tf, htf⟩ : ∃ tf, cell y.env j w = some tf := by
                have := f5.shape.2 j w
                rw [hct] at this
                exact Option.isSome_iff_exists.1 this
              by_cases hne : (t, false) = tf
              · subst hne
                rcases hy.num j w t false v htf hcv (.inl hk) with ⟨_, g⟩ | g
                · cases g
                · exact g
              · have hkf := f6 j w _ tf hw hpl hct htf hne
                rcases hy.num j w tf.1 tf.2 v (by rw [htf]) hcv (.inl hkf) with ⟨_, g⟩ | g
                · cases g
                · exact g
            · intro j w a hw hpl h1 h2
              rw [h1] at h2
              cases h2)
        (fun s hI => hI) fuel (startLoop st) ⟨hu, hR'⟩
      exact ⟨k1, fun st' r h => (k2 st' r h).2.weaken f4⟩
    · rename_i hc
      injection ha with ha
      subst ha
      have hfree : Free b := by
        apply m2
        simp only [List.append_eq_nil_iff] at hr
        obtain ⟨_, hr⟩ := hr
        have e : z.constraints = y.constraints := by rw [f3]
        rw [← e]
        cases hcs : z.constraints with
        | false => rfl
        | true => rw [hcs] at hr; cases hr
      have e : z.modified = outside b := by rw [f3]; exact m1
      constructor
      · exact whileLoop_free (conditional_free (exec_free fuel p b hfree) (by intro f hf; cases hf)
          (fun st => eval_free _)) fuel _
      · intro st' r h
        have he := whileLoop_env (R := Off (fun z _ _ => z ∈ assigned b)) Off.refl
          (fun _ _ _ => Off.trans (fun _ _ _ _ h _ => h))
          (fun st st' r cr h => conditional_env (R := Off (fun z _ _ => z ∈ assigned b)) Off.refl
            (fun _ _ _ => Off.trans (fun _ _ _ _ h _ => h))
            (fun st st' r h => (exec_off fuel p b false hs st st' r h).2.2 rfl)
            (by intro f hf; cases hf) h) fuel (startLoop st) _ _ h
        simp only [e]
        exact hR.forget hpar htr ((f1.trans Chg.trans f4).mono (Chg.mono fun _ h => by cases h)) he

theorem sound {fuel p : Nat} (hp : 0 < p) : ∀ (s : LStmt) (b : Bool) (q q' : Option Nat),
    s.erase.Scoped b → pending s q = some q' → Tracked s → (∀ x ∈ assigned s, x ∉ params) →
    Sound fuel p params s q q'
  | .nil, b, q, q', hs, hq, ht, hpar => by
    intro te x st ha hr hu hR
    simp only [analyze, Except.ok.injEq] at ha
    subst ha
    simp only [pending, Option.some.injEq] at hq
    subst hq
    refine ⟨by simp [LStmt.erase, exec], fun st' r h => ?_⟩
    simp only [LStmt.erase, exec, Except.ok.injEq, Prod.mk.injEq] at h
    obtain ⟨rfl, _⟩ := h
    exact hR
  | .cons s t, b, q, q', hs, hq, ht, hpar => by
    intro te x st ha hr hu hR
    simp only [pending, Option.bind_eq_some_iff] at hq
    obtain ⟨q1, hq1, hq2⟩ := hq
    simp only [analyze] at ha
    split at ha
    · cases ha
    · rename_i y hy
      split at ha
      · cases ha
      · rename_i z hz
        injection ha with ha
        subst ha
        simp only [List.append_eq_nil_iff] at hr
        obtain ⟨i1, i2⟩ := sound (fuel := fuel) hp s b q q1 hs.1 hq1 ht.1 (fun x hx => hpar x (List.mem_append_left _ hx))
          te y st hy hr.1 hu hR
        have ih2 := sound (fuel := fuel) hp t b q1 q' hs.2 hq2 ht.2 (fun x hx => hpar x (List.mem_append_right _ hx))
        simp only [LStmt.erase, exec]
        constructor
        · intro h
          split at h
          · rename_i er her
            injection h with h
            subst h
            exact i1 her
          · cases h
          · rename_i st1 h1
            exact (ih2 y.env z st1 hz hr.2 (by rw [exec_unknown _ _ _ _ _ _ h1]; exact hu) (i2 _ _ h1)).1 h
        · intro st' r h
          split at h
          · cases h
          · rename_i h1
            have := exec_novalue h1
            cases this
          · rename_i st1 h1
            exact (ih2 y.env z st1 hz hr.2 (by rw [exec_unknown _ _ _ _ _ _ h1]; exact hu) (i2 _ _ h1)).2 _ _ h
  | .decl i v, b, q, q', hs, hq, ht, hpar => by
    intro te x st ha hr hu hR
    cases q with
    | some y => simp [pending] at hq
    | none =>
      simp only [pending, Option.some.injEq] at hq
      subst hq
      simp only [analyze] at ha
      split at ha
      · cases ha
      · rename_i te' hte
        injection ha with ha
        subst ha
        simp only [LStmt.erase, exec]
        constructor
        · split <;> simp
        · intro st' r h
          split at h
          · cases h
          · rename_i env' henv
            simp only [Except.ok.injEq, Prod.mk.injEq] at h
            obtain ⟨rfl, _⟩ := h
            exact hR.add hte henv
  | .assign i v e, b, q, q', hs, hq, ht, hpar => by
    intro te x st ha hr hu hR
    have hq' : q' = none ∧ (q = none ∨ q = some v) ∧ ∀ y ∈ vars e, q ≠ some y := by
      cases q with
      | none =>
        simp only [pending, Option.some.injEq] at hq
        exact ⟨hq.symm, .inl rfl, fun _ _ h => by cases h⟩
      | some y =>
        simp only [pending] at hq
        split at hq
        · rename_i hc
          injection hq with hq
          refine ⟨hq.symm, .inr (by rw [hc.1]), fun w hw h => ?_⟩
          injection h with h
          subst h
          exact hc.2 hw
        · cases hq
    obtain ⟨rfl, hqv, hvars⟩ := hq'
    have hv : v ∉ params := hpar v (by simp [assigned])
    simp only [analyze] at ha
    split at ha
    · cases ha
    · rename_i t htag
      split at ha
      · cases ha
      · rename_i old a hg
        split at ha
        · cases ha
        · rename_i te' hte
          injection ha with ha
          subst ha
          constructor
          · intro h
            exact exec_free fuel p (.assign i v e) trivial st h
          · intro st' r h
            simp only [LStmt.erase, exec] at h
            split at h
            · cases h
            · rename_i w hw
              split at h
              · cases h
              · rename_i env' henv
                simp only [Except.ok.injEq, Prod.mk.injEq] at h
                obtain ⟨rfl, _⟩ := h
                rw [hu] at henv
                simp only [Bool.false_eq_true, if_false] at henv
                refine hR.assign hv hqv hg hte henv (fun hk => ?_)
                subst hk
                exact tag_sound hp hR e hvars htag w hw
  | .sassign i v e, b, q, q', hs, hq, ht, hpar => by
    intro te x st ha hr hu hR
    cases q with
    | some y => simp [pending] at hq
    | none =>
      simp only [pending, Option.some.injEq] at hq
      subst hq
      simp only [analyze] at ha
      split at ha
      · cases ha
      · injection ha with ha
        subst ha
        refine ⟨exec_free fuel p (.sassign i v e) trivial st, fun st' r h => ?_⟩
        simp only [LStmt.erase, exec] at h
        split at h
        · cases h
        · split at h
          · cases h
          · rename_i st1 h1
            simp only [Except.ok.injEq, Prod.mk.injEq] at h
            obtain ⟨rfl, _⟩ := h
            obtain ⟨a, _, rfl⟩ := assignSignal_ok h1
            exact hR
  | .cassign i v e, b, q, q', hs, hq, ht, hpar => by
    intro te x st ha hr hu hR
    cases q with
    | some y => simp [pending] at hq
    | none =>
      simp only [pending, Option.some.injEq] at hq
      subst hq
      simp only [analyze] at ha
      split at ha
      · cases ha
      · injection ha with ha
        subst ha
        simp only [LStmt.erase, exec, hu]
        constructor
        · intro h
          split at h
          · rename_i er her
            injection h with h
            subst h
            exact eval_free _ her
          · split at h
            · rename_i er her
              injection h with h
              subst h
              exact assignSignal_free her
            · simp only [Bool.false_eq_true, if_false] at h
              split at h
              · cases h
              · split at h
                · rename_i er her
                  injection h with h
                  subst h
                  exact addEquality_free her
                · cases h
        · intro st' r h
          split at h
          · cases h
          · split at h
            · cases h
            · rename_i st1 h1
              obtain ⟨a, _, rfl⟩ := assignSignal_ok h1
              simp only [Bool.false_eq_true, if_false] at h
              split at h
              · cases h
              · split at h
                · cases h
                · rename_i st2 h2
                  simp only [Except.ok.injEq, Prod.mk.injEq] at h
                  obtain ⟨rfl, _⟩ := h
                  obtain ⟨d, k, _, _, rfl⟩ := addEquality_ok h2
                  exact hR
  | .check i l r, b, q, q', hs, hq, ht, hpar => by
    intro te x st ha hr hu hR
    cases q with
    | some y => simp [pending] at hq
    | none =>
      simp only [pending, Option.some.injEq] at hq
      subst hq
      simp only [analyze, Except.ok.injEq] at ha
      subst ha
      simp only [LStmt.erase, exec, hu, Bool.false_eq_true, if_false]
      constructor
      · intro h
        split at h
        · rename_i er her
          injection h with h
          subst h
          exact eval_free _ her
        · split at h
          · rename_i er her
            injection h with h
            subst h
            exact eval_free _ her
          · split at h
            · rename_i er her
              injection h with h
              subst h
              exact addEquality_free her
            · cases h
      · intro st' r' h
        split at h
        · cases h
        · split at h
          · cases h
          · split at h
            · cases h
            · rename_i st2 h2
              simp only [Except.ok.injEq, Prod.mk.injEq] at h
              obtain ⟨rfl, _⟩ := h
              obtain ⟨d, k, _, _, rfl⟩ := addEquality_ok h2
              exact hR
  | .ifThen i c t, b, q, q', hs, hq, ht, hpar => by
    cases q with
    | some y => simp [pending] at hq
    | none =>
      simp only [pending] at hq
      split at hq
      · rename_i hqt
        injection hq with hq
        subst hq
        exact sound_if hp hs hpar ht.1 (sound hp t false none none hs hqt ht.2 hpar)
      · cases hq
  | .ifElse i c t e, b, q, q', hs, hq, ht, hpar => by
    cases q with
    | some y => simp [pending] at hq
    | none =>
      simp only [pending] at hq
      split at hq
      · rename_i hqt
        injection hq with hq
        subst hq
        exact sound_ifElse hp hs.1 hs.2 hpar ht.1
          (sound hp t false none none hs.1 hqt.1 ht.2.1 (fun x hx => hpar x (List.mem_append_left _ hx)))
          (sound hp e false none none hs.2 hqt.2 ht.2.2 (fun x hx => hpar x (List.mem_append_right _ hx)))
      · cases hq
  | .while i c s, b, q, q', hs, hq, ht, hpar => by
    cases q with
    | some y => simp [pending] at hq
    | none =>
      simp only [pending] at hq
      split at hq
      · rename_i hqt
        injection hq with hq
        subst hq
        exact sound_while hp hs hpar ht.1 (sound hp s false none none hs hqt ht.2 hpar)
      · cases hq
  | .block i s, b, q, q', hs, hq, ht, hpar => by
    intro te x st ha hr hu hR
    cases q with
    | some y => simp [pending] at hq
    | none =>
      simp only [pending] at hq
      split at hq
      · rename_i hqt
        injection hq with hq
        subst hq
        simp only [analyze] at ha
        split at ha
        · cases ha
        · rename_i y hy
          injection ha with ha
          subst ha
          obtain ⟨i1, i2⟩ := sound (fuel := fuel) hp s true none none hs hqt ht hpar ([] :: te) y
            { st with env := [] :: st.env } hy hr hu hR.push
          simp only [LStmt.erase, exec]
          constructor
          · intro h
            split at h
            · rename_i er her
              injection h with h
              subst h
              exact i1 her
            · cases h
          · intro st' r h
            split at h
            · cases h
            · rename_i h1
              simp only [Except.ok.injEq, Prod.mk.injEq] at h
              obtain ⟨rfl, _⟩ := h
              exact (i2 _ _ h1).tail
      · cases hq
  | .init i s, b, q, q', hs, hq, ht, hpar => by
    simp only [pending] at hq
    have := sound (fuel := fuel) hp s b q q' hs hq ht hpar
    intro te x st ha hr hu hR
    exact this te x st ha hr hu hR

/-! ### The number of passes -/

theorem outside_length : ∀ s : LStmt, (outside s).length = names s
  | .nil | .sassign _ _ _ | .cassign _ _ _ | .check _ _ _ | .while _ _ _ | .decl _ _ | .assign _ _ _ => rfl
  | .cons a b => by simp [outside, names, outside_length a, outside_length b]
  | .ifThen _ _ t => by simp [outside, names, outside_length t]
  | .ifElse _ _ t e => by simp [outside, names, outside_length t, outside_length e]
  | .block _ b | .init _ b => by simp [outside, names, outside_length b]

theorem countP_lt {L : List Nat} {f g : Nat → Bool} (h : ∀ x ∈ L, f x = true → g x = true) {y : Nat}
    (hy : y ∈ L) (h1 : f y = false) (h2 : g y = true) : L.countP f < L.countP g := by
  induction L with
  | nil => cases hy
  | cons z rest ih =>
    have hle : rest.countP f ≤ rest.countP g :=
      List.countP_mono_left fun x hx => h x (List.mem_cons_of_mem _ hx)
    rcases List.mem_cons.1 hy with rfl | hy
    · rw [List.countP_cons, List.countP_cons, h1, h2]
      simp only [Bool.false_eq_true, if_false, if_true]
      omega
    · have := ih (fun x hx => h x (List.mem_cons_of_mem _ hx)) hy
      rw [List.countP_cons, List.countP_cons]
      have hz := h z List.mem_cons_self
      cases hf : f z <;> cases hg : g z <;> simp [hf, hg] at hz ⊢ <;> omega

/-- Whether the visible variable is known. -/
def isKnown (A : TEnv) (x : Nat) : Bool :=
  match envGet A x with
  | some (t, _) => decide (t = .known)
  | none => false

theorem isKnown_cell {A : TEnv} {x i : Nat} {u : KTag × Bool} (hp : place A x = some i)
    (hc : cell A i x = some u) : isKnown A x = decide (u.1 = .known) := by
  unfold isKnown
  rw [envGet_cell, hp]
  simp only [Option.bind_some, hc]

theorem fixpoint_total {P L : List Nat} {body : TEnv → Except KErr Exit}
    (h0 : ∀ A, body A ≠ .error .outOfFuel)
    (hb : ∀ A x, body A = .ok x → Off (Chg P) A x.env ∧ x.modified = L) : ∀ (n : Nat) (A : TEnv),
    L.countP (isKnown A) < n → fixpoint body n A ≠ .error .outOfFuel
  | 0, A, hn => by omega
  | n + 1, A, hn => by
    intro h
    rw [Known.fixpoint] at h
    split at h
    · rename_i e he
      injection h with h
      exact h0 A (by rw [he, h])
    · rename_i ex hex
      obtain ⟨ho, hm⟩ := hb _ _ hex
      obtain ⟨c1, c2, c3, c4⟩ := checkModified_spec ex.modified A ex.env ho.shape.symm
      have hoc := Off.checkModified (L := ex.modified) ho
      split at h
      · rename_i env' hc
        rw [hc] at c2 c4 hoc
        simp only [Bool.true_eq_false, false_iff] at c4
        refine fixpoint_total h0 hb n env' ?_ h
        refine Nat.lt_of_lt_of_le ?_ (Nat.lt_succ_iff.1 hn)
        -- entries of the modified variables
        have key : ∀ x ∈ L, ∀ i u v, place A x = some i → cell A i x = some u → cell ex.env i x = some v →
            isKnown env' x = decide ((tmax u v).1 = .known) ∧ isKnown A x = decide (u.1 = .known) ∧
            u.2 = v.2 := by
          intro x hx i u v hp hu hv
          have := c2 i x u v hu hv
          rw [if_pos ⟨by rw [hm]; exact hx, hp⟩] at this
          refine ⟨isKnown_cell (by rw [hoc.shape.place]; exact hp) this, isKnown_cell hp hu, ?_⟩
          rcases ho.2 i x with k | ⟨_, a, b, k2, k3, k4⟩
          · rw [k, hu] at hv
            injection hv with hv
            rw [hv]
          · rw [hu] at k2; rw [hv] at k3
            injection k2 with k2; injection k3 with k3
            subst k2; subst k3
            exact k4.1
        have ex' : ∃ i x u v, x ∈ L ∧ place A x = some i ∧ cell A i x = some u ∧ cell ex.env i x = some v ∧
            u ≠ v ∧ v.1 ≠ .known := by
          by_contra hcon
          apply c4
          intro i x ti tf hx hp hi hf hne
          by_contra hk
          exact hcon ⟨i, x, ti, tf, by rw [← hm]; exact hx, hp, hi, hf, hne, hk⟩
        obtain ⟨i, x, u, v, hx, hp, hu, hv, hne, hk⟩ := ex'
        obtain ⟨k1, k2, k3⟩ := key x hx i u v hp hu hv
        refine countP_lt ?_ hx (y := x) ?_ ?_
        · intro z hz hkz
          cases hpz : place A z with
          | none =>
            exfalso
            have : place env' z = none := by rw [hoc.shape.place]; exact hpz
            unfold isKnown at hkz
            rw [envGet_cell, this] at hkz
            cases hkz
          | some j =>
            obtain ⟨u', hu'⟩ := Option.isSome_iff_exists.1 (place_cell hpz)
            obtain ⟨v', hv'⟩ : ∃ v', cell ex.env j z = some v' := by
              have := ho.shape.2 j z
              rw [hu'] at this
              exact Option.isSome_iff_exists.1 this
            obtain ⟨l1, l2, _⟩ := key z hz j u' v' hpz hu' hv'
            rw [l1, decide_eq_true_eq] at hkz
            rw [l2, decide_eq_true_eq]
            exact (tmax_known.1 hkz).1
        · rw [k1, decide_eq_false_iff_not, tmax_known]
          exact fun e => hk e.2
        · rw [k2, decide_eq_true_eq]
          cases hu1 : u.1 with
          | known => rfl
          | unknown =>
            exfalso
            apply hne
            rw [KTag.not_known] at hk
            exact Prod.ext (hu1.trans hk.symm) k3
      · cases h

theorem tag_total (A : TEnv) : ∀ e : LExpr, tag A e ≠ .error .outOfFuel
  | .num _ _ => by simp [tag]
  | .var _ x => by
    rw [tag]
    split <;> simp
  | .sig _ _ => by simp [tag]
  | .bin _ _ l r => by
    intro h
    rw [tag] at h
    split at h
    · rename_i e he
      injection h with h
      exact tag_total A l (by rw [he, h])
    · split at h
      · rename_i e he
        injection h with h
        exact tag_total A r (by rw [he, h])
      · cases h
  | .un _ _ e => by
    rw [tag]
    exact tag_total A e
  | .ite _ c a b => by
    intro h
    rw [tag] at h
    split at h
    · rename_i e he
      injection h with h
      exact tag_total A c (by rw [he, h])
    · split at h
      · rename_i e he
        injection h with h
        exact tag_total A a (by rw [he, h])
      · split at h
        · rename_i e he
          injection h with h
          exact tag_total A b (by rw [he, h])
        · cases h

theorem analyze_total : ∀ (s : LStmt) (b : Bool), s.erase.Scoped b → ∀ (A : TEnv),
    analyze s A ≠ .error .outOfFuel
  | .nil, b, hs, A => by simp [analyze]
  | .cons s t, b, hs, A => by
    intro h
    simp only [analyze] at h
    split at h
    · rename_i e he
      injection h with h
      exact analyze_total s b hs.1 A (by rw [he, h])
    · split at h
      · rename_i e he
        injection h with h
        exact analyze_total t b hs.2 _ (by rw [he, h])
      · cases h
  | .decl i v, b, hs, A => by
    simp only [analyze]
    split <;> simp
  | .assign i v e, b, hs, A => by
    intro h
    simp only [analyze] at h
    split at h
    · rename_i e he
      injection h with h
      exact tag_total A _ (by rw [he, h])
    · split at h
      · cases h
      · split at h <;> cases h
  | .sassign i v e, b, hs, A => by
    intro h
    simp only [analyze] at h
    split at h
    · rename_i e he
      injection h with h
      exact tag_total A _ (by rw [he, h])
    · cases h
  | .cassign i v e, b, hs, A => by
    intro h
    simp only [analyze] at h
    split at h
    · rename_i e he
      injection h with h
      exact tag_total A _ (by rw [he, h])
    · cases h
  | .check i l r, b, hs, A => by simp [analyze]
  | .ifThen i c t, b, hs, A => by
    intro h
    simp only [analyze] at h
    split at h
    · rename_i e he
      injection h with h
      exact tag_total A _ (by rw [he, h])
    · split at h
      · rename_i e he
        injection h with h
        exact analyze_total t false hs A (by rw [he, h])
      · split at h <;> cases h
  | .ifElse i c t e, b, hs, A => by
    intro h
    simp only [analyze] at h
    split at h
    · rename_i e he
      injection h with h
      exact tag_total A _ (by rw [he, h])
    · split at h
      · rename_i e he
        injection h with h
        exact analyze_total t false hs.1 A (by rw [he, h])
      · split at h
        · rename_i e he
          injection h with h
          exact analyze_total _ false hs.2 A (by rw [he, h])
        · split at h <;> cases h
  | .while i c s, b, hs, A => by
    intro h
    simp only [analyze] at h
    split at h
    · rename_i e he
      injection h with h
      refine fixpoint_total (L := outside s) (analyze_total s false hs)
        (fun A x h => ⟨(analyze_off s false hs A x h).2.2 rfl, (analyze_modified s A x h).1⟩) _ A ?_
        (by rw [he, h])
      rw [← outside_length]
      exact Nat.lt_succ_of_le List.countP_le_length
    · split at h
      · rename_i e he
        injection h with h
        exact tag_total _ c (by rw [he, h])
      · cases h
      · cases h
  | .block i s, b, hs, A => by
    intro h
    simp only [analyze] at h
    split at h
    · rename_i e he
      injection h with h
      exact analyze_total s true hs _ (by rw [he, h])
    · cases h
  | .init i s, b, hs, A => analyze_total s b hs A

end Verif.Known
