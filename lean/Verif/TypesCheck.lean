import Verif.TypesPure

/-!
The type checker establishes the typing relation of `Verif.TypesPure`.
-/

set_option linter.unusedVariables false
set_option linter.unusedSimpArgs false

namespace Verif.Types

/-- Signals and components declared in a statement. -/
def flatNames : Stmt → List Nat
  | .decl .var _ _ => []
  | .decl _ x _ => [x]
  | .seq a b => flatNames a ++ flatNames b
  | .ite _ a b => flatNames a ++ flatNames b
  | .loop _ b => flatNames b
  | .block b => flatNames b
  | _ => []

/-- Variables declared in a statement. -/
def varNames : Stmt → List Nat
  | .decl .var x _ => [x]
  | .seq a b => varNames a ++ varNames b
  | .ite _ a b => varNames a ++ varNames b
  | .loop _ b => varNames b
  | .block b => varNames b
  | _ => []

/-- No two signals or components of the template have the same name, and none has the name of a variable or
of a parameter. -/
def Once (D : Def) : Prop :=
  (flatNames D.body).Nodup ∧ ∀ x ∈ flatNames D.body, x ∉ varNames D.body ∧ x ∉ D.params

instance (D : Def) : Decidable (Once D) := by unfold Once; infer_instance

/-! ### Steps of the checker -/

/-- `R` and `Q` contain what has been registered. -/
def Sup (R : Nat → List Nat → Nat → Prop) (Q : Nat → Prop) (st : St) : Prop :=
  (∀ f ds r, ((f, ds), r) ∈ st.reg → R f ds r) ∧ ∀ f ∈ st.reached, Q f

/-- Reports are not withdrawn, instances are not forgotten, and new instances are well typed. -/
structure Step (P : Prog) (st st' : St) : Prop where
  rep : st'.rep = [] → st.rep = []
  reg : ∀ e ∈ st.reg, e ∈ st'.reg
  reached : ∀ f ∈ st.reached, f ∈ st'.reached
  new : st'.rep = [] → ∀ R Q, Sup R Q st' → ∀ f ds r, ((f, ds), r) ∈ st'.reg →
    ((f, ds), r) ∈ st.reg ∨ BodyOk P R Q f ds r

section Steps

variable {P : Prog} {st st1 st2 : St}

theorem Step.refl (st : St) : Step P st st := ⟨id, fun _ h => h, fun _ h => h, fun _ _ _ _ _ _ _ h => .inl h⟩

theorem Step.sup (h : Step P st st1) {R Q} (hs : Sup R Q st1) : Sup R Q st :=
  ⟨fun f ds r hm => hs.1 f ds r (h.reg _ hm), fun f hf => hs.2 f (h.reached f hf)⟩

theorem Step.trans (h1 : Step P st st1) (h2 : Step P st1 st2) : Step P st st2 := by
  refine ⟨fun h => h1.rep (h2.rep h), fun e he => h2.reg e (h1.reg e he), fun f hf => h2.reached f (h1.reached f hf), ?_⟩
  intro hr R Q hs f ds r hm
  rcases h2.new hr R Q hs f ds r hm with h | h
  · exact h1.new (h2.rep hr) R Q (h2.sup hs) f ds r h
  · exact .inr h

/-- A step which changes neither the register nor the reached definitions. -/
theorem Step.same (hr : st1.rep = [] → st.rep = []) (hg : st1.reg = st.reg) (hc : st1.reached = st.reached) :
    Step P st st1 :=
  ⟨hr, fun e he => hg ▸ he, fun f hf => hc ▸ hf, fun _ _ _ _ _ _ _ h => .inl (hg ▸ h)⟩

theorem add_ne (st : St) (r : Rep) : (st.add r).rep ≠ [] := by simp [St.add]

theorem Step.add (h : Step P st st1) (r : Rep) : Step P st (st1.add r) :=
  h.trans (Step.same (fun h => absurd h (add_ne _ _)) rfl rfl)

theorem need_rep {b : Bool} (h : (st.need b).rep = []) : b = true ∧ st.rep = [] := by
  unfold St.need at h
  cases b
  · exact absurd h (add_ne _ _)
  · exact ⟨rfl, h⟩

theorem need_env (st : St) (b : Bool) : (st.need b).env = st.env := by cases b <;> rfl
theorem need_ret (st : St) (b : Bool) : (st.need b).ret = st.ret := by cases b <;> rfl
theorem need_reg (st : St) (b : Bool) : (st.need b).reg = st.reg := by cases b <;> rfl
theorem need_reached (st : St) (b : Bool) : (st.need b).reached = st.reached := by cases b <;> rfl

theorem Step.need (h : Step P st st1) (b : Bool) : Step P st (st1.need b) :=
  h.trans (Step.same (fun h => (need_rep h).2) (need_reg _ _) (need_reached _ _))

theorem Step.indices (h : Step P st st1) (r : Option (List FT)) : Step P st (st1.indices r) := by
  cases r with
  | none => exact h
  | some ts => exact h.need _

theorem indices_env (st : St) (r : Option (List FT)) : (st.indices r).env = st.env := by
  cases r with
  | none => rfl
  | some ts => exact need_env _ _

theorem indices_ret (st : St) (r : Option (List FT)) : (st.indices r).ret = st.ret := by
  cases r with
  | none => rfl
  | some ts => exact need_ret _ _

theorem indices_rep {r : Option (List FT)} (h : (st.indices r).rep = []) :
    st.rep = [] ∧ ∀ ts, r = some ts → ts.all FT.scalar = true := by
  cases r with
  | none => exact ⟨h, fun ts h => by cases h⟩
  | some ts => exact ⟨(need_rep h).2, fun ts' h' => by cases h'; exact (need_rep h).1⟩

end Steps

/-! ### Environments -/

/-- The flat maps are part of the final ones; the template of a component may have been found meanwhile. -/
def Ext (fl S : Sg) : Prop :=
  ∀ e ∈ fl, match e.2 with
    | .sig io n => (e.1, Decl.sig io n) ∈ S
    | .comp (t, d) => ∃ t', (e.1, Decl.comp (t', d)) ∈ S ∧ ∀ u, t = some u → t' = some u

theorem Ext.refl (fl : Sg) : Ext fl fl := by
  rintro ⟨x, d⟩ he
  rcases d with ⟨io, n⟩ | ⟨t, d⟩
  · exact he
  · exact ⟨t, he, fun _ h => h⟩

theorem Ext.trans {a b c : Sg} (h1 : Ext a b) (h2 : Ext b c) : Ext a c := by
  rintro ⟨x, d⟩ he
  have := h1 _ he
  rcases d with ⟨io, n⟩ | ⟨t, d⟩
  · exact h2 _ this
  · obtain ⟨t', h3, h4⟩ := this
    obtain ⟨t'', h5, h6⟩ := h2 _ h3
    exact ⟨t'', h5, fun u hu => h6 u (h4 u hu)⟩

theorem Ext.cons (fl : Sg) (e) : Ext fl (e :: fl) := by
  intro e' he
  have := Ext.refl fl e' he
  rcases e' with ⟨x, ⟨io, n⟩ | ⟨t, d⟩⟩
  · exact List.mem_cons_of_mem _ this
  · obtain ⟨t', h1, h2⟩ := this
    exact ⟨t', List.mem_cons_of_mem _ h1, h2⟩

theorem Ext.keys {fl S : Sg} (h : Ext fl S) {x : Nat} (hx : x ∉ keys S) : sigGet fl x = none ∧ compGet fl x = none := by
  constructor
  · cases hs : sigGet fl x with
    | none => rfl
    | some n =>
      obtain ⟨io, hm⟩ := sigGet_mem hs
      exact absurd (key_mem (h _ hm)) hx
  · cases hs : compGet fl x with
    | none => rfl
    | some c =>
      obtain ⟨t', hm, _⟩ := h _ (compGet_mem hs)
      exact absurd (key_mem hm) hx

/-- The environment of the checker agrees with `S`. -/
structure EnvOk (env : Env Nat (Option Nat × Nat)) (S : Sg) : Prop where
  nodup : (keys S).Nodup
  ext : Ext env.flat S
  disj : ∀ x, getB env.blocks x ≠ none → x ∉ keys S

theorem symbol_var {P : Prog} {env : Env Nat (Option Nat × Nat)} {S : Sg} (hE : EnvOk env S) {x k n : Nat}
    (h : symbol P env x k none = .ok (.var n)) : ∃ d, getB env.blocks x = some d ∧ x ∉ keys S ∧ k ≤ d ∧ n = d - k := by
  simp only [symbol] at h
  have key : (getB env.blocks x).isSome → ∃ d, getB env.blocks x = some d ∧ x ∉ keys S ∧
      sigGet env.flat x = none ∧ compGet env.flat x = none := by
    intro hs
    cases hg : getB env.blocks x with
    | none => rw [hg] at hs; cases hs
    | some d =>
      have hx := hE.disj x (by rw [hg]; simp)
      exact ⟨d, rfl, hx, hE.ext.keys hx⟩
  by_cases hs : (getB env.blocks x).isSome
  · obtain ⟨d, h1, h2, h3, h4⟩ := key hs
    rw [h4, h3, h1] at h
    simp only [Option.map_some, Option.isSome_some, if_true] at h
    by_cases hk : k > d
    · rw [if_pos hk] at h; cases h
    · rw [if_neg hk] at h
      injection h with h; injection h with h
      exact ⟨d, h1, h2, by omega, h.symm⟩
  · split at h
    · cases h
    · rw [if_neg hs] at h
      split at h
      · cases h
      · split at h
        · cases h
        · split at h <;> cases h

theorem symbol_sig {P : Prog} {env : Env Nat (Option Nat × Nat)} {S : Sg} (hE : EnvOk env S) {x k n : Nat}
    (h : symbol P env x k none = .ok (.sig n)) :
    ∃ io d, (x, Decl.sig io d) ∈ S ∧ getB env.blocks x = none ∧ k ≤ d ∧ n = d - k := by
  simp only [symbol] at h
  by_cases hs : (getB env.blocks x).isSome
  · split at h
    · cases h
    · rw [if_pos hs] at h
      split at h <;> cases h
  · have hb : getB env.blocks x = none := by simpa using hs
    cases hg : sigGet env.flat x with
    | none =>
      rw [hg] at h
      split at h
      · cases h
      · rw [if_neg hs] at h
        split at h
        · cases h
        · simp only [Option.isSome_none, Bool.false_eq_true, if_false] at h
          split at h <;> cases h
    | some d =>
      obtain ⟨io, hm⟩ := sigGet_mem hg
      have hS := hE.ext _ hm
      have hc : compGet env.flat x = none := by
        cases hc : compGet env.flat x with
        | none => rfl
        | some c =>
          obtain ⟨t', h1, _⟩ := hE.ext _ (compGet_mem hc)
          cases nodup_unique hE.nodup hS h1
      rw [hc, hg, hb] at h
      simp only [Option.isSome_some, Option.isSome_none, Bool.false_eq_true, if_false, if_true] at h
      by_cases hk : k > d
      · rw [if_pos hk] at h; cases h
      · rw [if_neg hk] at h
        injection h with h; injection h with h
        exact ⟨io, d, hS, hb, by omega, h.symm⟩

theorem symbol_comp {P : Prog} {env : Env Nat (Option Nat × Nat)} {x k : Nat} {t : Option Nat}
    (h : symbol P env x k none = .ok (.comp t)) :
    ∃ d, compGet env.flat x = some (t, d) ∧ getB env.blocks x = none ∧ k = d := by
  simp only [symbol] at h
  by_cases hs : (getB env.blocks x).isSome
  · split at h
    · cases h
    · rw [if_pos hs] at h
      split at h <;> cases h
  · have hb : getB env.blocks x = none := by simpa using hs
    by_cases hg : (sigGet env.flat x).isSome
    · split at h
      · cases h
      · rw [if_neg hs, if_pos hg] at h
        split at h <;> cases h
    · have hg' : sigGet env.flat x = none := by simpa using hg
      rw [hb, hg'] at h
      cases hc : compGet env.flat x with
      | none => rw [hc] at h; simp at h
      | some c =>
        obtain ⟨t', d⟩ := c
        rw [hc] at h
        simp only [Option.isSome_none, Bool.false_eq_true, if_false] at h
        by_cases hk : k > d
        · rw [if_pos hk] at h; cases h
        · rw [if_neg hk] at h
          by_cases hz : d - k = 0
          · rw [if_pos hz] at h
            injection h with h; injection h with h
            subst h
            exact ⟨d, rfl, hb, by omega⟩
          · rw [if_neg hz] at h; cases h

theorem symbol_port {P : Prog} {env : Env Nat (Option Nat × Nat)} {S : Sg} (hE : EnvOk env S) {x k s m : Nat} {y : Sym}
    (h : symbol P env x k (some (s, m)) = .ok y) :
    ∃ t d D pd, (x, Decl.comp (some t, d)) ∈ S ∧ getB env.blocks x = none ∧ k = d ∧ get P.tpls t = some D ∧
      portGet D.body s = some pd ∧ m ≤ pd ∧ y = .sig (pd - m) := by
  simp only [symbol] at h
  cases hc : compGet env.flat x with
  | none => rw [hc] at h; simp only at h; split at h <;> cases h
  | some c =>
    obtain ⟨t, d⟩ := c
    rw [hc] at h
    simp only [ne_eq, ite_not] at h
    by_cases hk : d = k
    · rw [if_pos hk] at h
      cases t with
      | none => cases h
      | some t =>
        simp only at h
        cases hD : get P.tpls t with
        | none => rw [hD] at h; cases h
        | some D =>
          rw [hD] at h
          simp only at h
          cases hp : portGet D.body s with
          | none => rw [hp] at h; cases h
          | some pd =>
            rw [hp] at h
            simp only at h
            by_cases hm : m > pd
            · rw [if_pos hm] at h; cases h
            · rw [if_neg hm] at h
              injection h with h
              obtain ⟨t', h1, h2⟩ := hE.ext _ (compGet_mem hc)
              have := h2 t rfl
              subst this
              refine ⟨t, d, D, pd, h1, ?_, hk.symm, hD, hp, by omega, h.symm⟩
              cases hb : getB env.blocks x with
              | none => rfl
              | some a => exact absurd (key_mem h1) (hE.disj x (by rw [hb]; simp))
    · rw [if_neg hk] at h; cases h

/-! ### Expressions -/

/-- What is required of the handler of calls. -/
def CallSpec (P : Prog) (call : Nat → List Nat → St → St × Option FT) : Prop :=
  ∀ f dims st D, lookup P f = some D → D.params.length = dims.length →
    Step P st (call f dims st).1 ∧ (call f dims st).1.env = st.env ∧ (call f dims st).1.ret = st.ret ∧
    ((call f dims st).1.rep = [] → ∃ r, ((f, dims), r) ∈ (call f dims st).1.reg ∧
      (call f dims st).2 = some (if (get P.fns f).isSome then .ar r else .tpl f))

/-- Result of the checker on an expression. -/
def ResOk (P : Prog) (st : St) (e : Exp) (p : St × Option (List FT)) : Prop :=
  Step P st p.1 ∧ p.1.env = st.env ∧ p.1.ret = st.ret ∧
    (p.1.rep = [] → ∃ ts, p.2 = some ts ∧
      ∀ R Q S, Sup R Q p.1 → EnvOk st.env S → HasTy P R Q S st.env.blocks e ts)

/-- The same for a single type. -/
def ResOne (P : Prog) (st : St) (e : Exp) (p : St × Option FT) : Prop :=
  Step P st p.1 ∧ p.1.env = st.env ∧ p.1.ret = st.ret ∧
    (p.1.rep = [] → ∃ t, p.2 = some t ∧
      ∀ R Q S, Sup R Q p.1 → EnvOk st.env S → HasTy P R Q S st.env.blocks e [t])

theorem single_ok {P : Prog} {st : St} {e : Exp} {p : St × Option (List FT)} (h : ResOk P st e p) :
    ResOne P st e (single p) := by
  obtain ⟨h1, h2, h3, h4⟩ := h
  obtain ⟨st1, r⟩ := p
  match r, h4 with
  | none, h4 =>
    refine ⟨h1, h2, h3, fun hr => ?_⟩
    obtain ⟨ts, h5, _⟩ := h4 hr
    cases h5
  | some [t], h4 =>
    refine ⟨h1, h2, h3, fun hr => ?_⟩
    obtain ⟨ts, h5, h6⟩ := h4 hr
    cases h5
    exact ⟨t, rfl, h6⟩
  | some [], h4 => exact ⟨h1.add _, h2, h3, fun hr => absurd hr (add_ne _ _)⟩
  | some (_ :: _ :: _), h4 => exact ⟨h1.add _, h2, h3, fun hr => absurd hr (add_ne _ _)⟩

theorem scalar_eq {t : FT} (h : t.scalar = true) : t = .ar 0 := by
  rcases t with n | u
  · cases n with
    | zero => rfl
    | succ n => simp [FT.scalar] at h
  · simp [FT.scalar] at h

theorem dims_eq {ts : List FT} (h : ¬ ts.any FT.isTpl = true) : ts = (ts.map FT.dim).map .ar := by
  induction ts with
  | nil => rfl
  | cons t ts ih =>
    simp only [List.any_cons, Bool.or_eq_true, not_or] at h
    rcases t with n | u
    · simp only [List.map_cons, FT.dim]
      rw [← ih h.2]
    · simp [FT.isTpl] at h

theorem ty_ok {P : Prog} {call : Nat → List Nat → St → St × Option FT} (hcall : CallSpec P call) (e : Exp) :
    ∀ st, ResOk P st e (ty P call e st) := by
  induction e with
  | num => intro st; exact ⟨Step.refl _, rfl, rfl, fun _ => ⟨_, rfl, fun _ _ _ _ _ => .num⟩⟩
  | var x is ih =>
    intro st
    have hi := ih st
    simp only [ty]
    rcases hp : ty P call is st with ⟨st1, ris⟩
    rw [hp] at hi
    obtain ⟨h1, h2, h3, h4⟩ := hi
    simp only at h1 h2 h3 h4 ⊢
    have e2 : (st1.indices ris).env = st.env := (indices_env _ _).trans h2
    have e3 : (st1.indices ris).ret = st.ret := (indices_ret _ _).trans h3
    have s2 := h1.indices ris
    have fin : ∀ R Q S, (st1.indices ris).rep = [] → Sup R Q (st1.indices ris) → EnvOk st.env S →
        ∃ ts, HasTy P R Q S st.env.blocks is ts ∧ ts.all FT.scalar = true := by
      intro R Q S hr hs hE
      obtain ⟨h5, h6⟩ := indices_rep hr
      obtain ⟨ts, h7, h8⟩ := h4 h5
      exact ⟨ts, h8 R Q S ((Step.refl (P := P) st1).indices ris |>.sup hs) hE, h6 ts h7⟩
    cases hsym : symbol P (st1.indices ris).env x (len is) none with
    | error r => exact ⟨s2.add _, e2, e3, fun hr => absurd hr (add_ne _ _)⟩
    | ok y =>
      rw [e2] at hsym
      rcases y with t | n | n
      · cases t with
        | none => exact ⟨s2.add _, e2, e3, fun hr => absurd hr (add_ne _ _)⟩
        | some t =>
          refine ⟨s2, e2, e3, fun hr => ⟨_, rfl, fun R Q S hs hE => ?_⟩⟩
          obtain ⟨ts, h5, h6⟩ := fin R Q S hr hs hE
          obtain ⟨d, h7, h8, h9⟩ := symbol_comp hsym
          obtain ⟨t', h10, h11⟩ := hE.ext _ (compGet_mem h7)
          have := h11 t rfl
          subst this
          exact .vcomp x is ts t d h5 h6 h10 h8 h9
      · refine ⟨s2, e2, e3, fun hr => ⟨_, rfl, fun R Q S hs hE => ?_⟩⟩
        obtain ⟨ts, h5, h6⟩ := fin R Q S hr hs hE
        obtain ⟨d, h7, h8, h9, rfl⟩ := symbol_var hE hsym
        exact .vvar x is ts d h5 h6 h7 h8 h9
      · refine ⟨s2, e2, e3, fun hr => ⟨_, rfl, fun R Q S hs hE => ?_⟩⟩
        obtain ⟨ts, h5, h6⟩ := fin R Q S hr hs hE
        obtain ⟨io, d, h7, h8, h9, rfl⟩ := symbol_sig hE hsym
        exact .vsig x is ts io d h5 h6 h7 h8 h9
  | port x is s js ih ih' =>
    intro st
    have hi := ih st
    simp only [ty]
    rcases hp : ty P call is st with ⟨st1, ris⟩
    rw [hp] at hi
    obtain ⟨h1, h2, h3, h4⟩ := hi
    simp only at h1 h2 h3 h4 ⊢
    have hj := ih' (st1.indices ris)
    rcases hp' : ty P call js (st1.indices ris) with ⟨st2, rjs⟩
    rw [hp'] at hj
    obtain ⟨j1, j2, j3, j4⟩ := hj
    simp only at j1 j2 j3 j4 ⊢
    have e2 : (st1.indices ris).env = st.env := (indices_env _ _).trans h2
    have e3 : (st2.indices rjs).env = st.env := (indices_env _ _).trans (j2.trans e2)
    have r3 : (st2.indices rjs).ret = st.ret :=
      (indices_ret _ _).trans (j3.trans ((indices_ret _ _).trans h3))
    have s3 := (h1.indices ris).trans (j1.indices rjs)
    cases hsym : symbol P (st2.indices rjs).env x (len is) (some (s, len js)) with
    | error r => exact ⟨s3.add _, e3, r3, fun hr => absurd hr (add_ne _ _)⟩
    | ok y =>
      rw [e3] at hsym
      rcases y with t | n | n
      · exact ⟨s3.add _, e3, r3, fun hr => absurd hr (add_ne _ _)⟩
      · exact ⟨s3.add _, e3, r3, fun hr => absurd hr (add_ne _ _)⟩
      · refine ⟨s3, e3, r3, fun hr => ⟨_, rfl, fun R Q S hs hE => ?_⟩⟩
        obtain ⟨j5, j6⟩ := indices_rep hr
        obtain ⟨us, j7, j8⟩ := j4 j5
        have hs2 := (Step.refl (P := P) st2).indices rjs |>.sup hs
        have hs1 := j1.sup hs2
        obtain ⟨i5, i6⟩ := indices_rep (j1.rep j5)
        obtain ⟨ts, i7, i8⟩ := h4 i5
        have hs0 := (Step.refl (P := P) st1).indices ris |>.sup hs1
        obtain ⟨t, d, D, pd, k1, k2, k3, k4, k5, k6, k7⟩ := symbol_port hE hsym
        injection k7 with k7
        subst k7
        have hty := j8 R Q S hs2 (by rw [e2]; exact hE)
        rw [e2] at hty
        exact .port x is ts s js us t d D pd (i8 R Q S hs0 hE) (i6 ts i7) hty (j6 us j7) k1 k2 k3 k4 k5 k6
  | op l r ihl ihr =>
    intro st
    have hi := single_ok (ihl st)
    simp only [ty]
    rcases hp : single (ty P call l st) with ⟨st1, rl⟩
    rw [hp] at hi
    obtain ⟨h1, h2, h3, h4⟩ := hi
    simp only at h1 h2 h3 h4 ⊢
    have hj := single_ok (ihr st1)
    rcases hp' : single (ty P call r st1) with ⟨st2, rr⟩
    rw [hp'] at hj
    obtain ⟨j1, j2, j3, j4⟩ := hj
    simp only at j1 j2 j3 j4 ⊢
    rw [h2] at j2 j4
    have s2 := h1.trans j1
    have r2 := j3.trans h3
    cases rl with
    | none =>
      refine ⟨s2, j2, r2, fun hr => ?_⟩
      obtain ⟨t, ht, _⟩ := h4 (j1.rep hr)
      cases ht
    | some a =>
      cases rr with
      | none =>
        refine ⟨s2, j2, r2, fun hr => ?_⟩
        obtain ⟨t, ht, _⟩ := j4 hr
        cases ht
      | some b =>
        simp only
        by_cases hab : (a.scalar && b.scalar) = true
        · rw [if_pos hab]
          refine ⟨s2, j2, r2, fun hr => ⟨_, rfl, fun R Q S hs hE => ?_⟩⟩
          rw [Bool.and_eq_true] at hab
          obtain ⟨t, ht, h5⟩ := h4 (j1.rep hr)
          obtain ⟨u, hu, j5⟩ := j4 hr
          cases ht; cases hu
          have := h5 R Q S (j1.sup hs) hE
          have h6 := j5 R Q S hs hE
          rw [scalar_eq hab.1] at this
          rw [scalar_eq hab.2] at h6
          exact .op l r this h6
        · rw [if_neg hab]
          exact ⟨s2.add _, j2, r2, fun hr => absurd hr (add_ne _ _)⟩
  | pre e ih =>
    intro st
    have hi := single_ok (ih st)
    simp only [ty]
    rcases hp : single (ty P call e st) with ⟨st1, rl⟩
    rw [hp] at hi
    obtain ⟨h1, h2, h3, h4⟩ := hi
    simp only at h1 h2 h3 h4 ⊢
    cases rl with
    | none =>
      refine ⟨h1, h2, h3, fun hr => ?_⟩
      obtain ⟨t, ht, _⟩ := h4 hr
      cases ht
    | some a =>
      simp only
      by_cases ha : a.scalar = true
      · rw [if_pos ha]
        refine ⟨h1, h2, h3, fun hr => ⟨_, rfl, fun R Q S hs hE => ?_⟩⟩
        obtain ⟨t, ht, h5⟩ := h4 hr
        cases ht
        have := h5 R Q S hs hE
        rw [scalar_eq ha] at this
        exact .pre e this
      · rw [if_neg ha]
        exact ⟨h1.add _, h2, h3, fun hr => absurd hr (add_ne _ _)⟩
  | par e ih =>
    intro st
    have hi := single_ok (ih st)
    simp only [ty]
    rcases hp : single (ty P call e st) with ⟨st1, rl⟩
    rw [hp] at hi
    obtain ⟨h1, h2, h3, h4⟩ := hi
    simp only at h1 h2 h3 h4 ⊢
    cases rl with
    | none =>
      refine ⟨h1, h2, h3, fun hr => ?_⟩
      obtain ⟨t, ht, _⟩ := h4 hr
      cases ht
    | some a =>
      simp only
      rcases a with n | t
      · exact ⟨h1.add _, h2, h3, fun hr => absurd hr (add_ne _ _)⟩
      · refine ⟨h1, h2, h3, fun hr => ⟨_, rfl, fun R Q S hs hE => ?_⟩⟩
        obtain ⟨t, ht, h5⟩ := h4 hr
        cases ht
        exact .par e _ (h5 R Q S hs hE)
  | cond c a b ihc iha ihb =>
    intro st
    have hi := single_ok (ihc st)
    simp only [ty]
    rcases hp : single (ty P call c st) with ⟨st1, rc⟩
    rw [hp] at hi
    obtain ⟨h1, h2, h3, h4⟩ := hi
    simp only at h1 h2 h3 h4 ⊢
    have hj := single_ok (iha st1)
    rcases hp' : single (ty P call a st1) with ⟨st2, ra⟩
    rw [hp'] at hj
    obtain ⟨j1, j2, j3, j4⟩ := hj
    simp only at j1 j2 j3 j4 ⊢
    rw [h2] at j2 j4
    have hk := single_ok (ihb st2)
    rcases hp'' : single (ty P call b st2) with ⟨st3, rb⟩
    rw [hp''] at hk
    obtain ⟨k1, k2, k3, k4⟩ := hk
    simp only at k1 k2 k3 k4 ⊢
    rw [j2] at k2 k4
    have s3 := (h1.trans j1).trans k1
    have r3 := k3.trans (j3.trans h3)
    have all : ∀ {p : Prop}, st3.rep = [] → (∀ tc ta tb, rc = some tc → ra = some ta → rb = some tb → p) → p := by
      intro p hr hp
      obtain ⟨tb, hb, _⟩ := k4 hr
      obtain ⟨ta, ha, _⟩ := j4 (k1.rep hr)
      obtain ⟨tc, hc, _⟩ := h4 (j1.rep (k1.rep hr))
      exact hp tc ta tb hc ha hb
    cases ra with
    | none => exact ⟨s3, k2, r3, fun hr => all hr (by intro _ _ _ _ h; cases h)⟩
    | some ta =>
      cases rc with
      | none => exact ⟨s3, k2, r3, fun hr => all hr (by intro _ _ _ h; cases h)⟩
      | some tc =>
        cases rb with
        | none =>
          refine ⟨s3.need _, (need_env _ _).trans k2, (need_ret _ _).trans r3, fun hr => ?_⟩
          exact all (need_rep hr).2 (by intro _ _ _ _ _ h; cases h)
        | some tb =>
          refine ⟨(s3.need _).need _, ?_, ?_, fun hr => ⟨_, rfl, fun R Q S hs hE => ?_⟩⟩
          · simp only [need_env]; exact k2
          · simp only [need_ret]; exact r3
          · obtain ⟨g1, g2⟩ := need_rep hr
            obtain ⟨g3, g4⟩ := need_rep g2
            have hs3 : Sup R Q st3 := ((Step.refl (P := P) st3).need _ |>.need _).sup hs
            obtain ⟨_, hb, k5⟩ := k4 g4
            obtain ⟨_, ha, j5⟩ := j4 (k1.rep g4)
            obtain ⟨_, hc, h5⟩ := h4 (j1.rep (k1.rep g4))
            cases ha; cases hb; cases hc
            have e1 := h5 R Q S (j1.sup (k1.sup hs3)) hE
            have e2 := j5 R Q S (k1.sup hs3) hE
            have e3 := k5 R Q S hs3 hE
            rw [scalar_eq g3] at e1
            rw [← of_decide_eq_true g1] at e3
            exact .cond c a b _ e1 e2 e3
  | arr es ih =>
    intro st
    have hi := ih st
    simp only [ty]
    rcases hp : ty P call es st with ⟨st1, r⟩
    rw [hp] at hi
    obtain ⟨h1, h2, h3, h4⟩ := hi
    simp only at h1 h2 h3 h4 ⊢
    match r, h4 with
    | none, h4 =>
      refine ⟨h1, h2, h3, fun hr => ?_⟩
      obtain ⟨t, ht, _⟩ := h4 hr
      cases ht
    | some [], h4 => exact ⟨h1.add _, h2, h3, fun hr => absurd hr (add_ne _ _)⟩
    | some (t :: ts), h4 =>
      refine ⟨h1.need _, (need_env _ _).trans h2, (need_ret _ _).trans h3, fun hr => ⟨_, rfl, fun R Q S hs hE => ?_⟩⟩
      obtain ⟨g1, g2⟩ := need_rep hr
      obtain ⟨_, ht, h5⟩ := h4 g2
      cases ht
      refine .arr es (t :: ts) t.dim (h5 R Q S ((Step.refl (P := P) st1).need _ |>.sup hs) hE) (by simp) ?_
      intro u hu
      have := List.all_eq_true.mp g1 u hu
      rcases u with n | u
      · simp only [FT.isTpl, FT.dim, Bool.not_false, Bool.true_and, beq_iff_eq] at this
        rw [this]; rfl
      · simp [FT.isTpl] at this
  | uni v n ihv ihn =>
    intro st
    have hi := single_ok (ihv st)
    simp only [ty]
    rcases hp : single (ty P call v st) with ⟨st1, rv⟩
    rw [hp] at hi
    obtain ⟨h1, h2, h3, h4⟩ := hi
    simp only at h1 h2 h3 h4 ⊢
    cases rv with
    | none =>
      refine ⟨h1, h2, h3, fun hr => ?_⟩
      obtain ⟨t, ht, _⟩ := h4 hr
      cases ht
    | some tv =>
      simp only
      have hj := single_ok (ihn (st1.need !tv.isTpl))
      rcases hp' : single (ty P call n (st1.need !tv.isTpl)) with ⟨st2, rn⟩
      rw [hp'] at hj
      obtain ⟨j1, j2, j3, j4⟩ := hj
      simp only at j1 j2 j3 j4 ⊢
      rw [need_env, h2] at j2 j4
      rw [need_ret, h3] at j3
      have s2 := (h1.need _).trans j1
      cases rn with
      | none =>
        refine ⟨s2, j2, j3, fun hr => ?_⟩
        obtain ⟨t, ht, _⟩ := j4 hr
        cases ht
      | some tn =>
        refine ⟨s2.need _, (need_env _ _).trans j2, (need_ret _ _).trans j3, fun hr => ⟨_, rfl, fun R Q S hs hE => ?_⟩⟩
        obtain ⟨g1, g2⟩ := need_rep hr
        have hs2 : Sup R Q st2 := (Step.refl (P := P) st2).need _ |>.sup hs
        obtain ⟨g3, g4⟩ := need_rep (j1.rep g2)
        obtain ⟨_, ht, h5⟩ := h4 g4
        obtain ⟨_, hu, j5⟩ := j4 g2
        cases ht; cases hu
        have hs1 : Sup R Q st1 := (Step.refl (P := P) st1).need _ |>.sup (j1.sup hs2)
        have e1 := h5 R Q S hs1 hE
        have e2 := j5 R Q S hs2 hE
        rw [scalar_eq g1] at e2
        rcases tv with d | u
        · exact .uni v n d e1 e2
        · simp [FT.isTpl] at g3
  | call f es ih =>
    intro st
    have s0 : Step P st { st with reached := f :: st.reached } :=
      ⟨id, fun _ h => h, fun _ h => List.mem_cons_of_mem _ h, fun _ _ _ _ _ _ _ h => .inl h⟩
    have hi := ih { st with reached := f :: st.reached }
    simp only [ty]
    rcases hp : ty P call es { st with reached := f :: st.reached } with ⟨st1, r⟩
    rw [hp] at hi
    obtain ⟨h1, h2, h3, h4⟩ := hi
    simp only at h1 h2 h3 h4 ⊢
    have hreach : f ∈ st1.reached := h1.reached f List.mem_cons_self
    cases r with
    | none =>
      refine ⟨s0.trans h1, h2, h3, fun hr => ?_⟩
      obtain ⟨t, ht, _⟩ := h4 hr
      cases ht
    | some ts =>
      simp only
      by_cases ht : ts.any FT.isTpl = true
      · rw [if_pos ht]
        exact ⟨(s0.trans h1).add _, h2, h3, fun hr => absurd hr (add_ne _ _)⟩
      · rw [if_neg ht]
        cases hD : lookup P f with
        | none => exact ⟨(s0.trans h1).add _, h2, h3, fun hr => absurd hr (add_ne _ _)⟩
        | some D =>
          simp only
          by_cases hl : D.params.length = ts.length
          · rw [if_neg (by simp [hl])]
            obtain ⟨c1, c2, c3, c4⟩ := hcall f (ts.map FT.dim) st1 D hD (by simp [hl])
            rcases hc : call f (ts.map FT.dim) st1 with ⟨st2, r2⟩
            rw [hc] at c1 c2 c3 c4
            simp only at c1 c2 c3 c4 ⊢
            refine ⟨(s0.trans h1).trans c1, c2.trans h2, c3.trans h3, fun hr => ?_⟩
            obtain ⟨r, c5, c6⟩ := c4 hr
            obtain ⟨ts', h5, h6⟩ := h4 (c1.rep hr)
            cases h5
            refine ⟨_, by rw [c6]; rfl, fun R Q S hs hE => ?_⟩
            have hty := h6 R Q S (c1.sup hs) hE
            rw [dims_eq ht] at hty
            have hR := hs.1 _ _ _ c5
            have hQ := hs.2 f (c1.reached f hreach)
            unfold lookup at hD
            cases hf : get P.fns f with
            | some D' =>
              rw [hf] at hD
              injection hD with hD
              subst hD
              simp only [Option.isSome_some, if_true]
              exact .callf f es _ D' r hty hf (by simp [hl]) hR hQ
            | none =>
              rw [hf] at hD
              simp only [Option.isSome_none, Bool.false_eq_true, if_false]
              exact .callt f es _ D r hty hf hD (by simp [hl]) hR hQ
          · rw [if_pos (by simpa using hl)]
            exact ⟨(s0.trans h1).add _, h2, h3, fun hr => absurd hr (add_ne _ _)⟩
  | nil => intro st; exact ⟨Step.refl _, rfl, rfl, fun _ => ⟨_, rfl, fun _ _ _ _ _ => .nil⟩⟩
  | cons e es ihe ihes =>
    intro st
    have hi := single_ok (ihe st)
    simp only [ty]
    rcases hp : single (ty P call e st) with ⟨st1, re⟩
    rw [hp] at hi
    obtain ⟨h1, h2, h3, h4⟩ := hi
    simp only at h1 h2 h3 h4 ⊢
    have hj := ihes st1
    rcases hp' : ty P call es st1 with ⟨st2, res⟩
    rw [hp'] at hj
    obtain ⟨j1, j2, j3, j4⟩ := hj
    simp only at j1 j2 j3 j4 ⊢
    rw [h2] at j2 j4
    have s2 := h1.trans j1
    have r2 := j3.trans h3
    cases re with
    | none =>
      refine ⟨s2, j2, r2, fun hr => ?_⟩
      obtain ⟨t, ht, _⟩ := h4 (j1.rep hr)
      cases ht
    | some t =>
      cases res with
      | none =>
        refine ⟨s2, j2, r2, fun hr => ?_⟩
        obtain ⟨t, ht, _⟩ := j4 hr
        cases ht
      | some ts =>
        refine ⟨s2, j2, r2, fun hr => ⟨_, rfl, fun R Q S hs hE => ?_⟩⟩
        obtain ⟨_, ht, h5⟩ := h4 (j1.rep hr)
        obtain ⟨_, hu, j5⟩ := j4 hr
        cases ht; cases hu
        exact .cons e es _ _ (h5 R Q S (j1.sup hs) hE) (j5 R Q S hs hE)

/-! ### Statements -/

theorem free_ty {P : Prog} {R Q} {G : Gm} {e : Exp} {ts : List FT} (h : HasTy P R Q [] G e ts) :
    freeE P e = true → ∀ t ∈ ts, t.isTpl = false := by
  induction h with
  | num => intro _ t ht; simp at ht; subst ht; rfl
  | vvar => intro _ t ht; simp at ht; subst ht; rfl
  | vsig x is ts io d h hs hx => cases hx
  | vcomp x is ts t d h hs hx => cases hx
  | port => intro h; simp [freeE] at h
  | op => intro _ t ht; simp at ht; subst ht; rfl
  | pre => intro _ t ht; simp at ht; subst ht; rfl
  | par e t h ih =>
    intro hf
    exact ih (by simpa [freeE] using hf)
  | cond c a b t hc ha hb ihc iha ihb =>
    intro hf
    simp only [freeE, Bool.and_eq_true] at hf
    exact iha hf.1.2
  | arr => intro _ t ht; simp at ht; subst ht; rfl
  | uni => intro _ t ht; simp at ht; subst ht; rfl
  | callf => intro _ t ht; simp at ht; subst ht; rfl
  | callt f es ds D r h hf =>
    intro hfr
    simp [freeE, hf] at hfr
  | nil => intro _ t ht; cases ht
  | cons e es t ts he hes ihe ihes =>
    intro hf
    simp only [freeE, Bool.and_eq_true] at hf
    intro u hu
    rcases List.mem_cons.mp hu with rfl | hu
    · exact ihe hf.1 _ (List.mem_singleton_self _)
    · exact ihes hf.2 u hu

/-- What the typing relation needs to know of a statement and of the final typing of signals and
components. -/
structure Fits (P : Prog) (s : Stmt) (st : St) (S : Sg) (port : Nat → Option Nat) (ret : Option Nat) : Prop where
  vars : ∀ x ∈ varNames s, x ∉ keys S
  ports : ∀ p ∈ portsOf s, port p.1 = some p.2.2
  ret : noRet s = true ∨ (ret = st.ret ∧ freeS P s = true ∧ S = [])

/-- Result of the checker on a statement. -/
structure StmtOk (P : Prog) (s : Stmt) (st st' : St) : Prop where
  step : Step P st st'
  ret : st'.ret = st.ret
  tail : st'.env.blocks.tail = st.env.blocks.tail
  names : keys st'.env.flat = (flatNames s).reverse ++ keys st.env.flat
  vars : ∀ x, getB st'.env.blocks x ≠ none → getB st.env.blocks x ≠ none ∨ x ∈ varNames s
  ext : (keys st'.env.flat).Nodup → Ext st.env.flat st'.env.flat
  ok : st'.rep = [] → ∀ R Q S port ret, Sup R Q st' → (keys S).Nodup → (keys st'.env.flat).Nodup →
    Ext st'.env.flat S → (∀ x, getB st.env.blocks x ≠ none → x ∉ keys S) → Fits P s st S port ret →
    OkS P R Q S ret port s st.env.blocks st'.env.blocks

/-- The same for a block. -/
structure BlockOk (P : Prog) (s : Stmt) (st st' : St) : Prop where
  step : Step P st st'
  ret : st'.ret = st.ret
  blocks : st'.env.blocks = st.env.blocks
  names : keys st'.env.flat = (flatNames s).reverse ++ keys st.env.flat
  ext : (keys st'.env.flat).Nodup → Ext st.env.flat st'.env.flat
  ok : st'.rep = [] → ∀ R Q S port ret, Sup R Q st' → (keys S).Nodup → (keys st'.env.flat).Nodup →
    Ext st'.env.flat S → (∀ x, getB st.env.blocks x ≠ none → x ∉ keys S) → Fits P s st S port ret →
    ∃ G, OkS P R Q S ret port s ([] :: st.env.blocks) G

theorem inBlk_ok {P : Prog} {s : Stmt} {f : St → St} (hf : ∀ st, StmtOk P s st (f st)) (st : St) :
    BlockOk P s st (inBlk f st) := by
  have h := hf { st with env := { st.env with blocks := [] :: st.env.blocks } }
  have s0 : Step P st { st with env := { st.env with blocks := [] :: st.env.blocks } } := Step.same id rfl rfl
  unfold inBlk
  generalize hg : f { st with env := { st.env with blocks := [] :: st.env.blocks } } = st' at h
  have s1 : Step P st' { st' with env := { st'.env with blocks := st'.env.blocks.tail } } := Step.same id rfl rfl
  refine ⟨(s0.trans h.step).trans s1, h.ret, h.tail, h.names, h.ext, ?_⟩
  intro hr R Q S port ret hs hn hn' he hd hF
  exact ⟨_, h.ok hr R Q S port ret hs hn hn' he hd ⟨hF.vars, hF.ports, hF.ret⟩⟩

/-- A statement that changes neither block nor flat maps. -/
theorem StmtOk.plain {P : Prog} {s : Stmt} {st st' : St} (hstep : Step P st st') (henv : st'.env = st.env)
    (hret : st'.ret = st.ret) (hn : flatNames s = [])
    (hok : st'.rep = [] → ∀ R Q S port ret, Sup R Q st' → EnvOk st.env S → Fits P s st S port ret →
      OkS P R Q S ret port s st.env.blocks st.env.blocks) : StmtOk P s st st' := by
  refine ⟨hstep, hret, by rw [henv], by rw [henv, hn]; rfl, fun x hx => .inl (by rw [← henv]; exact hx),
    fun _ => by rw [henv]; exact Ext.refl _, ?_⟩
  intro hr R Q S port ret hs hn hn' he hd hF
  rw [henv] at he ⊢
  exact hok hr R Q S port ret hs ⟨hn, he, hd⟩ hF

theorem keys_compSet (fl : Sg) (x : Nat) (f : Option Nat × Nat → Option Nat × Nat) : keys (compSet fl x f) = keys fl := by
  unfold keys compSet
  rw [List.map_map]
  refine List.map_congr_left fun e _ => ?_
  obtain ⟨y, ⟨io, n⟩ | c⟩ := e
  · rfl
  · simp only [Function.comp]
    split <;> rfl

theorem compSet_mem' {fl : Sg} {x : Nat} {f : Option Nat × Nat → Option Nat × Nat} {c : Option Nat × Nat}
    (h : (x, Decl.comp c) ∈ fl) : (x, Decl.comp (f c)) ∈ compSet fl x f := by
  unfold compSet
  refine List.mem_map.mpr ⟨_, h, ?_⟩
  simp

theorem Ext.compSet {fl : Sg} {x u d : Nat} (hn : (Types.keys fl).Nodup) (h : compGet fl x = some (none, d)) :
    Ext fl (compSet fl x fun e => (some u, e.2)) := by
  rintro ⟨y, ⟨io, n⟩ | ⟨t, d'⟩⟩ he
  · exact List.mem_map.mpr ⟨_, he, rfl⟩
  · by_cases hy : y = x
    · subst hy
      cases nodup_unique hn he (compGet_mem h)
      exact ⟨some u, compSet_mem' (f := fun e => (some u, e.2)) he, fun _ h => by cases h⟩
    · refine ⟨t, List.mem_map.mpr ⟨_, he, by simp [hy]⟩, fun _ h => h⟩

theorem getB_addB {α : Type} {bs : List (List (Nat × α))} {x y : Nat} {a : α} (h : getB (addB bs y a) x ≠ none) :
    getB bs x ≠ none ∨ x = y := by
  by_cases hy : y = x
  · exact .inr hy.symm
  · left
    cases bs with
    | nil => simp [addB, getB, get, hy] at h
    | cons b bs => simpa [addB, getB, get, hy] using h

theorem assign_ok {P : Prog} {st st3 : St} {x : Nat} {is : Exp} {o : AOp} {e : Exp} {t : FT} {y : Sym}
    (hstep : Step P st st3) (henv : st3.env = st.env) (hret : st3.ret = st.ret)
    (hty : st3.rep = [] → ∀ R Q S, Sup R Q st3 → EnvOk st.env S →
      HasTy P R Q S st.env.blocks e [t] ∧ ∃ ts, HasTy P R Q S st.env.blocks is ts ∧ ts.all FT.scalar = true)
    (hy : symbol P st.env x (len is) none = .ok y) :
    StmtOk P (.sub x is o e) st (assignTo st3 x o t y) := by
  have err : StmtOk P (.sub x is o e) st (st3.add .err) :=
    .plain (hstep.add _) henv hret rfl fun hr => absurd hr (add_ne _ _)
  have dims : ∀ n, t.isTpl = false → t.dim = n → t = .ar n := by
    intro n h1 h2
    rcases t with m | u
    · simp only [FT.dim] at h2; rw [h2]
    · simp [FT.isTpl] at h1
  rcases y with c | n | n
  · simp only [assignTo]
    by_cases ho : o = .var
    · subst ho
      rw [if_neg (by simp)]
      rcases t with m | u
      · exact err
      · rcases c with _ | v
        · simp only
          obtain ⟨d, h4, h5, h6⟩ := symbol_comp hy
          have hext : (keys st.env.flat).Nodup →
              Ext st.env.flat (compSet st3.env.flat x fun e => (some u, e.2)) := by
            intro hn
            rw [henv]
            exact Ext.compSet hn h4
          refine ⟨hstep.trans (Step.same id rfl rfl), hret, by rw [henv], ?_, ?_, ?_, ?_⟩
          · simp only [keys_compSet, flatNames, henv]; rfl
          · intro z hz; left; rw [← henv]; exact hz
          · intro hn
            simp only [keys_compSet, henv] at hn
            exact hext hn
          · intro hr R Q S port ret hs hn hn' he hd hF
            simp only [keys_compSet, henv] at hn'
            have hE : EnvOk st.env S := ⟨hn, (hext hn').trans he, hd⟩
            obtain ⟨h1, ts, h2, h3⟩ := hty hr R Q S hs hE
            have hm : (x, Decl.comp (some u, d)) ∈ compSet st3.env.flat x fun e => (some u, e.2) := by
              rw [henv]
              exact compSet_mem' (f := fun e => (some u, e.2)) (compGet_mem h4)
            obtain ⟨t', h7, h8⟩ := he _ hm
            have := h8 u rfl
            subst this
            simp only [henv]
            exact .scomp x is ts e u d _ h2 h3 h7 h5 h6 h1
        · simp only
          refine .plain (hstep.need _) ((need_env _ _).trans henv) ((need_ret _ _).trans hret) rfl ?_
          intro hr R Q S port ret hs hE hF
          obtain ⟨g1, g2⟩ := need_rep hr
          have huv := of_decide_eq_true g1
          subst huv
          obtain ⟨h1, ts, h2, h3⟩ := hty g2 R Q S ((Step.refl (P := P) st3).need _ |>.sup hs) hE
          obtain ⟨d, h4, h5, h6⟩ := symbol_comp hy
          obtain ⟨t', h7, h8⟩ := hE.ext _ (compGet_mem h4)
          have := h8 u rfl
          subst this
          exact .scomp x is ts e u d _ h2 h3 h7 h5 h6 h1
    · rw [if_pos ho]; exact err
  · simp only [assignTo]
    by_cases ho : o = .var
    · subst ho
      rw [if_neg (by simp)]
      by_cases ht : t.isTpl = true
      · rw [if_pos ht]; exact err
      · rw [if_neg ht]
        refine .plain (hstep.need _) ((need_env _ _).trans henv) ((need_ret _ _).trans hret) rfl ?_
        intro hr R Q S port ret hs hE hF
        obtain ⟨g1, g2⟩ := need_rep hr
        obtain ⟨h1, ts, h2, h3⟩ := hty g2 R Q S ((Step.refl (P := P) st3).need _ |>.sup hs) hE
        obtain ⟨d, h4, h5, h6, rfl⟩ := symbol_var hE hy
        rw [dims _ (by simpa using ht) (of_decide_eq_true g1).symm] at h1
        exact .svar x is ts e d _ h2 h3 h4 h5 h6 h1
    · rw [if_pos ho]; exact err
  · simp only [assignTo]
    by_cases ho : o = .var
    · rw [if_pos ho]; exact err
    · rw [if_neg ho]
      by_cases ht : t.isTpl = true
      · rw [if_pos ht]; exact err
      · rw [if_neg ht]
        refine .plain (hstep.need _) ((need_env _ _).trans henv) ((need_ret _ _).trans hret) rfl ?_
        intro hr R Q S port ret hs hE hF
        obtain ⟨g1, g2⟩ := need_rep hr
        obtain ⟨h1, ts, h2, h3⟩ := hty g2 R Q S ((Step.refl (P := P) st3).need _ |>.sup hs) hE
        obtain ⟨io, d, h4, h5, h6, rfl⟩ := symbol_sig hE hy
        rw [dims _ (by simpa using ht) (of_decide_eq_true g1).symm] at h1
        exact .ssig x is ts o e io d _ h2 h3 h4 h5 ho h6 h1

theorem tyS_ok {P : Prog} {call : Nat → List Nat → St → St × Option FT} (hcall : CallSpec P call) (s : Stmt) :
    ∀ st, StmtOk P s st (tyS P call s st) := by
  induction s with
  | skip => intro st; exact .plain (Step.refl _) rfl rfl rfl fun _ _ _ _ _ _ _ _ _ => .skip _
  | seq a b iha ihb =>
    intro st
    have ha := iha st
    simp only [tyS]
    have hb := ihb (tyS P call a st)
    generalize tyS P call a st = st1 at ha hb ⊢
    generalize tyS P call b st1 = st2 at hb ⊢
    have sub : (keys st2.env.flat).Nodup → (keys st1.env.flat).Nodup := by
      intro h; rw [hb.names] at h; exact (List.nodup_append.mp h).2.1
    refine ⟨ha.step.trans hb.step, hb.ret.trans ha.ret, hb.tail.trans ha.tail, ?_, ?_, ?_, ?_⟩
    · rw [hb.names, ha.names]; simp [flatNames]
    · intro x hx
      simp only [varNames, List.mem_append]
      rcases hb.vars x hx with h | h
      · rcases ha.vars x h with h | h
        · exact .inl h
        · exact .inr (.inl h)
      · exact .inr (.inr h)
    · intro h; exact (ha.ext (sub h)).trans (hb.ext h)
    · intro hr R Q S port ret hs hn hn' he hd hF
      have hFa : Fits P a st S port ret := by
        refine ⟨fun x hx => hF.vars x (by simp [varNames, hx]), fun p hp => hF.ports p (by simp [portsOf, hp]), ?_⟩
        rcases hF.ret with h | ⟨h1, h2, h3⟩
        · simp only [noRet, Bool.and_eq_true] at h; exact .inl h.1
        · simp only [freeS, Bool.and_eq_true] at h2; exact .inr ⟨h1, h2.1, h3⟩
      have hFb : Fits P b st1 S port ret := by
        refine ⟨fun x hx => hF.vars x (by simp [varNames, hx]), fun p hp => hF.ports p (by simp [portsOf, hp]), ?_⟩
        rcases hF.ret with h | ⟨h1, h2, h3⟩
        · simp only [noRet, Bool.and_eq_true] at h; exact .inl h.2
        · simp only [freeS, Bool.and_eq_true] at h2; exact .inr ⟨h1.trans ha.ret.symm, h2.2, h3⟩
      refine .seq a b _ _ _ (ha.ok (hb.step.rep hr) R Q S port ret (hb.step.sup hs) hn (sub hn') ((hb.ext hn').trans he) hd hFa)
        (hb.ok hr R Q S port ret hs hn hn' he ?_ hFb)
      intro x hx
      rcases ha.vars x hx with h | h
      · exact hd x h
      · exact hFa.vars x h
  | decl k x ds =>
    intro st
    have hi := ty_ok hcall ds st
    simp only [tyS]
    rcases hp : ty P call ds st with ⟨st1, r⟩
    rw [hp] at hi
    obtain ⟨h1, h2, h3, h4⟩ := hi
    simp only at h1 h2 h3 h4 ⊢
    have e2 : (st1.indices r).env = st.env := (indices_env _ _).trans h2
    have e3 : (st1.indices r).ret = st.ret := (indices_ret _ _).trans h3
    have s2 := h1.indices r
    have fin : ∀ R Q S, (st1.indices r).rep = [] → Sup R Q (st1.indices r) → EnvOk st.env S →
        ∃ ts, HasTy P R Q S st.env.blocks ds ts ∧ ts.all FT.scalar = true := by
      intro R Q S hr hs hE
      obtain ⟨h5, h6⟩ := indices_rep hr
      obtain ⟨ts, h7, h8⟩ := h4 h5
      exact ⟨ts, h8 R Q S ((Step.refl (P := P) st1).indices r |>.sup hs) hE, h6 ts h7⟩
    cases k with
    | var =>
      simp only [e2]
      refine ⟨s2.trans (Step.same id rfl rfl), e3, addB_tail _ _ _, rfl, ?_, fun _ => Ext.refl _, ?_⟩
      · intro y hy
        rcases getB_addB hy with h | h
        · exact .inl h
        · right; simp [varNames, h]
      · intro hr R Q S port ret hs hn hn' he hd hF
        obtain ⟨ts, h5, h6⟩ := fin R Q S hr hs ⟨hn, he, hd⟩
        exact .dvar x ds ts _ h5 h6
    | sig io =>
      simp only [e2]
      refine ⟨s2.trans (Step.same id rfl rfl), e3, rfl, rfl, fun y hy => .inl hy, fun _ => Ext.cons _ _, ?_⟩
      intro hr R Q S port ret hs hn hn' he hd hF
      obtain ⟨ts, h5, h6⟩ := fin R Q S hr hs ⟨hn, (Ext.cons _ _).trans he, hd⟩
      refine .dsig io x ds ts _ h5 h6 (he _ List.mem_cons_self) ?_
      by_cases hio : io = .inter
      · exact .inl hio
      · right
        exact hF.ports (x, io, len ds) (by simp [portsOf, hio])
    | comp i =>
      simp only [e2]
      refine ⟨s2.trans (Step.same id rfl rfl), e3, rfl, rfl, fun y hy => .inl hy, fun _ => Ext.cons _ _, ?_⟩
      intro hr R Q S port ret hs hn hn' he hd hF
      obtain ⟨ts, h5, h6⟩ := fin R Q S hr hs ⟨hn, (Ext.cons _ _).trans he, hd⟩
      obtain ⟨t', h7, _⟩ := he _ List.mem_cons_self
      exact .dcomp i x ds ts t' _ h5 h6 h7
  | sub x is o e =>
    intro st
    have hi := single_ok (ty_ok hcall e st)
    simp only [tyS]
    rcases hp : single (ty P call e st) with ⟨st1, re⟩
    rw [hp] at hi
    obtain ⟨h1, h2, h3, h4⟩ := hi
    simp only at h1 h2 h3 h4 ⊢
    cases re with
    | none =>
      refine .plain h1 h2 h3 rfl fun hr => ?_
      obtain ⟨t, ht, _⟩ := h4 hr
      cases ht
    | some t =>
      simp only
      have hj := ty_ok hcall is st1
      rcases hp' : ty P call is st1 with ⟨st2, ris⟩
      rw [hp'] at hj
      obtain ⟨j1, j2, j3, j4⟩ := hj
      simp only at j1 j2 j3 j4 ⊢
      rw [h2] at j2 j4
      have e3 : (st2.indices ris).env = st.env := (indices_env _ _).trans j2
      have r3 : (st2.indices ris).ret = st.ret := (indices_ret _ _).trans (j3.trans h3)
      have s3 := h1.trans (j1.indices ris)
      cases hsym : symbol P (st2.indices ris).env x (len is) none with
      | error r => exact .plain (s3.add _) e3 r3 rfl fun hr => absurd hr (add_ne _ _)
      | ok y =>
        rw [e3] at hsym
        refine assign_ok s3 e3 r3 ?_ hsym
        intro hr R Q S hs hE
        obtain ⟨j5, j6⟩ := indices_rep hr
        obtain ⟨ts, j7, j8⟩ := j4 j5
        obtain ⟨_, ht, h5⟩ := h4 (j1.rep j5)
        cases ht
        have hs2 := (Step.refl (P := P) st2).indices ris |>.sup hs
        exact ⟨h5 R Q S (j1.sup hs2) hE, ts, j8 R Q S hs2 hE, j6 ts j7⟩
  | subp x is s js o e =>
    intro st
    have hi := single_ok (ty_ok hcall e st)
    simp only [tyS]
    rcases hp : single (ty P call e st) with ⟨st1, re⟩
    rw [hp] at hi
    obtain ⟨h1, h2, h3, h4⟩ := hi
    simp only at h1 h2 h3 h4 ⊢
    cases re with
    | none =>
      refine .plain h1 h2 h3 rfl fun hr => ?_
      obtain ⟨t, ht, _⟩ := h4 hr
      cases ht
    | some t =>
      simp only
      have hj := ty_ok hcall is st1
      rcases hp' : ty P call is st1 with ⟨st2, ris⟩
      rw [hp'] at hj
      obtain ⟨j1, j2, j3, j4⟩ := hj
      simp only at j1 j2 j3 j4 ⊢
      rw [h2] at j2 j4
      have hk := ty_ok hcall js (st2.indices ris)
      rcases hp'' : ty P call js (st2.indices ris) with ⟨st3, rjs⟩
      rw [hp''] at hk
      obtain ⟨k1, k2, k3, k4⟩ := hk
      simp only at k1 k2 k3 k4 ⊢
      rw [indices_env, j2] at k2 k4
      rw [indices_ret, j3, h3] at k3
      have e4 : (st3.indices rjs).env = st.env := (indices_env _ _).trans k2
      have r4 : (st3.indices rjs).ret = st.ret := (indices_ret _ _).trans k3
      have s4 := (h1.trans (j1.indices ris)).trans (k1.indices rjs)
      cases hsym : symbol P (st3.indices rjs).env x (len is) (some (s, len js)) with
      | error r => exact .plain (s4.add _) e4 r4 rfl fun hr => absurd hr (add_ne _ _)
      | ok y =>
        rw [e4] at hsym
        have all : ∀ R Q S, (st3.indices rjs).rep = [] → Sup R Q (st3.indices rjs) → EnvOk st.env S →
            HasTy P R Q S st.env.blocks e [t] ∧
            (∃ ts, HasTy P R Q S st.env.blocks is ts ∧ ts.all FT.scalar = true) ∧
            ∃ us, HasTy P R Q S st.env.blocks js us ∧ us.all FT.scalar = true := by
          intro R Q S hr hs hE
          obtain ⟨k5, k6⟩ := indices_rep hr
          obtain ⟨us, k7, k8⟩ := k4 k5
          obtain ⟨j5, j6⟩ := indices_rep (k1.rep k5)
          obtain ⟨ts, j7, j8⟩ := j4 j5
          obtain ⟨_, ht, h5⟩ := h4 (j1.rep j5)
          cases ht
          have hs3 := (Step.refl (P := P) st3).indices rjs |>.sup hs
          have hs2 := (Step.refl (P := P) st2).indices ris |>.sup (k1.sup hs3)
          exact ⟨h5 R Q S (j1.sup hs2) hE, ⟨ts, j8 R Q S hs2 hE, j6 ts j7⟩, us, k8 R Q S hs3 hE, k6 us k7⟩
        have err : StmtOk P (.subp x is s js o e) st ((st3.indices rjs).add .err) :=
          .plain (s4.add _) e4 r4 rfl fun hr => absurd hr (add_ne _ _)
        have hsig : ∃ n, y = .sig n := by
          simp only [symbol] at hsym
          split at hsym
          · split at hsym
            · cases hsym
            · split at hsym
              · cases hsym
              · split at hsym
                · cases hsym
                · split at hsym
                  · cases hsym
                  · split at hsym
                    · cases hsym
                    · injection hsym with h; exact ⟨_, h.symm⟩
          · split at hsym <;> cases hsym
        obtain ⟨n, rfl⟩ := hsig
        simp only [assignTo]
        by_cases ho : o = .var
        · rw [if_pos ho]; exact err
        · rw [if_neg ho]
          rcases t with m | u
          · simp only [FT.isTpl, Bool.false_eq_true, if_false, FT.dim]
            refine .plain (s4.need _) ((need_env _ _).trans e4) ((need_ret _ _).trans r4) rfl ?_
            intro hr R Q S port ret hs hE hF
            obtain ⟨g1, g2⟩ := need_rep hr
            obtain ⟨a1, ⟨ts, a2, a3⟩, us, a4, a5⟩ := all R Q S g2 ((Step.refl (P := P) _).need _ |>.sup hs) hE
            obtain ⟨t, d, D, pd, b1, b2, b3, b4, b5, b6, b7⟩ := symbol_port hE hsym
            injection b7 with b7
            have hm := of_decide_eq_true g1
            rw [← hm, b7] at a1
            exact .subp x is ts s js us o e t d D pd _ a2 a3 a4 a5 b1 b2 b3 b4 b5 ho b6 a1
          · exact err
  | eqc l r =>
    intro st
    have hi := single_ok (ty_ok hcall l st)
    simp only [tyS]
    rcases hp : single (ty P call l st) with ⟨st1, rl⟩
    rw [hp] at hi
    obtain ⟨h1, h2, h3, h4⟩ := hi
    simp only at h1 h2 h3 h4 ⊢
    have hj := single_ok (ty_ok hcall r st1)
    rcases hp' : single (ty P call r st1) with ⟨st2, rr⟩
    rw [hp'] at hj
    obtain ⟨j1, j2, j3, j4⟩ := hj
    simp only at j1 j2 j3 j4 ⊢
    rw [h2] at j2 j4
    have s2 := h1.trans j1
    have r2 := j3.trans h3
    cases rl with
    | none =>
      refine .plain s2 j2 r2 rfl fun hr => ?_
      obtain ⟨t, ht, _⟩ := h4 (j1.rep hr)
      cases ht
    | some a =>
      cases rr with
      | none =>
        refine .plain s2 j2 r2 rfl fun hr => ?_
        obtain ⟨t, ht, _⟩ := j4 hr
        cases ht
      | some b =>
        refine .plain (s2.need _) ((need_env _ _).trans j2) ((need_ret _ _).trans r2) rfl ?_
        intro hr R Q S port ret hs hE hF
        obtain ⟨g1, g2⟩ := need_rep hr
        obtain ⟨_, ht, h5⟩ := h4 (j1.rep g2)
        obtain ⟨_, hu, j5⟩ := j4 g2
        cases ht; cases hu
        have hs2 := (Step.refl (P := P) st2).need _ |>.sup hs
        have a1 := h5 R Q S (j1.sup hs2) hE
        have a2 := j5 R Q S hs2 hE
        rcases a with m | u
        · rcases b with m' | u'
          · simp only [FT.isTpl, FT.dim, Bool.not_false, Bool.true_and, beq_iff_eq] at g1
            subst g1
            exact .eqc l r m _ a1 a2
          · simp [FT.isTpl] at g1
        · simp [FT.isTpl] at g1
  | log e =>
    intro st
    have hi := single_ok (ty_ok hcall e st)
    simp only [tyS]
    rcases hp : single (ty P call e st) with ⟨st1, re⟩
    rw [hp] at hi
    obtain ⟨h1, h2, h3, h4⟩ := hi
    simp only at h1 h2 h3 h4 ⊢
    cases re with
    | none =>
      refine .plain h1 h2 h3 rfl fun hr => ?_
      obtain ⟨t, ht, _⟩ := h4 hr
      cases ht
    | some t =>
      refine .plain (h1.need _) ((need_env _ _).trans h2) ((need_ret _ _).trans h3) rfl ?_
      intro hr R Q S port ret hs hE hF
      obtain ⟨g1, g2⟩ := need_rep hr
      obtain ⟨_, ht, h5⟩ := h4 g2
      cases ht
      have := h5 R Q S ((Step.refl (P := P) st1).need _ |>.sup hs) hE
      rw [scalar_eq g1] at this
      exact .log e _ this
  | asrt e =>
    intro st
    have hi := single_ok (ty_ok hcall e st)
    simp only [tyS]
    rcases hp : single (ty P call e st) with ⟨st1, re⟩
    rw [hp] at hi
    obtain ⟨h1, h2, h3, h4⟩ := hi
    simp only at h1 h2 h3 h4 ⊢
    cases re with
    | none =>
      refine .plain h1 h2 h3 rfl fun hr => ?_
      obtain ⟨t, ht, _⟩ := h4 hr
      cases ht
    | some t =>
      refine .plain (h1.need _) ((need_env _ _).trans h2) ((need_ret _ _).trans h3) rfl ?_
      intro hr R Q S port ret hs hE hF
      obtain ⟨g1, g2⟩ := need_rep hr
      obtain ⟨_, ht, h5⟩ := h4 g2
      cases ht
      have := h5 R Q S ((Step.refl (P := P) st1).need _ |>.sup hs) hE
      rw [scalar_eq g1] at this
      exact .asrt e _ this
  | ret e =>
    intro st
    have hi := single_ok (ty_ok hcall e st)
    simp only [tyS]
    rcases hp : single (ty P call e st) with ⟨st1, re⟩
    rw [hp] at hi
    obtain ⟨h1, h2, h3, h4⟩ := hi
    simp only at h1 h2 h3 h4 ⊢
    cases re with
    | none =>
      refine .plain h1 h2 h3 rfl fun hr => ?_
      obtain ⟨t, ht, _⟩ := h4 hr
      cases ht
    | some t =>
      simp only
      cases hrt : st1.ret with
      | none => exact .plain (h1.add _) h2 (by rw [← h3]; rfl) rfl fun hr => absurd hr (add_ne _ _)
      | some n =>
        refine .plain (h1.need _) ((need_env _ _).trans h2) ((need_ret _ _).trans h3) rfl ?_
        intro hr R Q S port ret hs hE hF
        obtain ⟨g1, g2⟩ := need_rep hr
        obtain ⟨_, ht, h5⟩ := h4 g2
        cases ht
        have hty := h5 R Q S ((Step.refl (P := P) st1).need _ |>.sup hs) hE
        rcases hF.ret with h | ⟨a1, a2, a3⟩
        · cases h
        · subst a3
          have := free_ty hty (by simpa [freeS] using a2) t (List.mem_singleton_self _)
          rcases t with m | u
          · have hm := of_decide_eq_true g1
            simp only [FT.dim] at hm
            refine .ret e m _ hty ?_
            rw [a1, ← h3, hrt, hm]
          · cases this
  | ite c a b iha ihb =>
    intro st
    have hi := single_ok (ty_ok hcall c st)
    simp only [tyS]
    rcases hp : single (ty P call c st) with ⟨st1, rc⟩
    rw [hp] at hi
    obtain ⟨h1, h2, h3, h4⟩ := hi
    simp only at h1 h2 h3 h4 ⊢
    have ha := inBlk_ok iha st1
    have hb := inBlk_ok ihb (inBlk (tyS P call a) st1)
    generalize inBlk (tyS P call a) st1 = st2 at ha hb ⊢
    generalize inBlk (tyS P call b) st2 = st3 at hb ⊢
    have sub : (keys st3.env.flat).Nodup → (keys st2.env.flat).Nodup := by
      intro h; rw [hb.names] at h; exact (List.nodup_append.mp h).2.1
    have key : ∀ st4, Step P st3 st4 → st4.env = st3.env → st4.ret = st3.ret →
        (st4.rep = [] → ∃ t, rc = some t ∧ t.scalar = true) → StmtOk P (.ite c a b) st st4 := by
      intro st4 hs4 he4 hr4 hsc
      refine ⟨((h1.trans ha.step).trans hb.step).trans hs4, ?_, ?_, ?_, ?_, ?_, ?_⟩
      · rw [hr4, hb.ret, ha.ret, h3]
      · rw [he4, hb.blocks, ha.blocks, h2]
      · rw [he4, hb.names, ha.names, h2]; simp [flatNames]
      · intro x hx; left; rw [he4, hb.blocks, ha.blocks, h2] at hx; exact hx
      · intro hn; rw [he4] at hn ⊢
        have := (ha.ext (sub hn)).trans (hb.ext hn)
        rw [h2] at this; exact this
      · intro hr R Q S port ret hs hn hn' he hd hF
        rw [he4] at hn' he
        obtain ⟨t, ht, hsc'⟩ := hsc hr
        subst ht
        have hs3 := hs4.sup hs
        have hs2 := hb.step.sup hs3
        have hs1 := ha.step.sup hs2
        have r3 := hs4.rep hr
        have r2 := hb.step.rep r3
        have r1 := ha.step.rep r2
        have x2 : Ext st2.env.flat S := (hb.ext hn').trans he
        have x1 : Ext st1.env.flat S := (ha.ext (sub hn')).trans x2
        obtain ⟨_, ht, h5⟩ := h4 r1
        cases ht
        have hc := h5 R Q S hs1 ⟨hn, by rw [← h2]; exact x1, hd⟩
        rw [scalar_eq hsc'] at hc
        have hFa : Fits P a st1 S port ret := by
          refine ⟨fun x hx => hF.vars x (by simp [varNames, hx]), fun p hp => hF.ports p (by simp [portsOf, hp]), ?_⟩
          rcases hF.ret with h | ⟨b1, b2, b3⟩
          · simp only [noRet, Bool.and_eq_true] at h; exact .inl h.1
          · simp only [freeS, Bool.and_eq_true] at b2; exact .inr ⟨b1.trans h3.symm, b2.1.2, b3⟩
        have hFb : Fits P b st2 S port ret := by
          refine ⟨fun x hx => hF.vars x (by simp [varNames, hx]), fun p hp => hF.ports p (by simp [portsOf, hp]), ?_⟩
          rcases hF.ret with h | ⟨b1, b2, b3⟩
          · simp only [noRet, Bool.and_eq_true] at h; exact .inl h.2
          · simp only [freeS, Bool.and_eq_true] at b2
            exact .inr ⟨b1.trans (ha.ret.trans h3).symm, b2.2, b3⟩
        obtain ⟨Ga, oa⟩ := ha.ok r2 R Q S port ret hs2 hn (sub hn') x2 (by rw [h2]; exact hd) hFa
        obtain ⟨Gb, ob⟩ := hb.ok r3 R Q S port ret hs3 hn hn' he (by rw [ha.blocks, h2]; exact hd) hFb
        rw [h2] at oa
        rw [ha.blocks, h2] at ob
        rw [he4, hb.blocks, ha.blocks, h2]
        exact .ite c a b _ Ga Gb hc oa ob
    cases rc with
    | none =>
      refine key st3 (Step.refl _) rfl rfl fun hr => ?_
      obtain ⟨t, ht, _⟩ := h4 (ha.step.rep (hb.step.rep hr))
      cases ht
    | some t => exact key _ ((Step.refl _).need _) (need_env _ _) (need_ret _ _) fun hr => ⟨t, rfl, (need_rep hr).1⟩
  | loop c b ihb =>
    intro st
    have hi := single_ok (ty_ok hcall c st)
    simp only [tyS]
    rcases hp : single (ty P call c st) with ⟨st1, rc⟩
    rw [hp] at hi
    obtain ⟨h1, h2, h3, h4⟩ := hi
    simp only at h1 h2 h3 h4 ⊢
    have hb := inBlk_ok ihb st1
    generalize inBlk (tyS P call b) st1 = st3 at hb ⊢
    have key : ∀ st4, Step P st3 st4 → st4.env = st3.env → st4.ret = st3.ret →
        (st4.rep = [] → ∃ t, rc = some t ∧ t.scalar = true) → StmtOk P (.loop c b) st st4 := by
      intro st4 hs4 he4 hr4 hsc
      refine ⟨(h1.trans hb.step).trans hs4, ?_, ?_, ?_, ?_, ?_, ?_⟩
      · rw [hr4, hb.ret, h3]
      · rw [he4, hb.blocks, h2]
      · rw [he4, hb.names, h2]; simp [flatNames]
      · intro x hx; left; rw [he4, hb.blocks, h2] at hx; exact hx
      · intro hn; rw [he4] at hn ⊢
        have := hb.ext hn
        rw [h2] at this; exact this
      · intro hr R Q S port ret hs hn hn' he hd hF
        rw [he4] at hn' he
        obtain ⟨t, ht, hsc'⟩ := hsc hr
        subst ht
        have hs3 := hs4.sup hs
        have hs1 := hb.step.sup hs3
        have r3 := hs4.rep hr
        have r1 := hb.step.rep r3
        have x1 : Ext st1.env.flat S := (hb.ext hn').trans he
        obtain ⟨_, ht, h5⟩ := h4 r1
        cases ht
        have hc := h5 R Q S hs1 ⟨hn, by rw [← h2]; exact x1, hd⟩
        rw [scalar_eq hsc'] at hc
        have hFb : Fits P b st1 S port ret := by
          refine ⟨fun x hx => hF.vars x (by simp [varNames, hx]), fun p hp => hF.ports p (by simp [portsOf, hp]), ?_⟩
          rcases hF.ret with h | ⟨b1, b2, b3⟩
          · exact .inl h
          · simp only [freeS, Bool.and_eq_true] at b2; exact .inr ⟨b1.trans h3.symm, b2.2, b3⟩
        obtain ⟨Gb, ob⟩ := hb.ok r3 R Q S port ret hs3 hn hn' he (by rw [h2]; exact hd) hFb
        rw [h2] at ob
        rw [he4, hb.blocks, h2]
        exact .loop c b _ Gb hc ob
    cases rc with
    | none =>
      refine key st3 (Step.refl _) rfl rfl fun hr => ?_
      obtain ⟨t, ht, _⟩ := h4 (hb.step.rep hr)
      cases ht
    | some t => exact key _ ((Step.refl _).need _) (need_env _ _) (need_ret _ _) fun hr => ⟨t, rfl, (need_rep hr).1⟩
  | block b ihb =>
    intro st
    simp only [tyS]
    have hb := inBlk_ok ihb st
    generalize inBlk (tyS P call b) st = st3 at hb ⊢
    refine ⟨hb.step, hb.ret, by rw [hb.blocks], hb.names, ?_, hb.ext, ?_⟩
    · intro x hx; left; rw [hb.blocks] at hx; exact hx
    · intro hr R Q S port ret hs hn hn' he hd hF
      obtain ⟨Gb, ob⟩ := hb.ok hr R Q S port ret hs hn hn' he hd ⟨hF.vars, hF.ports, hF.ret⟩
      rw [hb.blocks]
      exact .block b _ Gb ob
  | under e =>
    intro st
    have hi := single_ok (ty_ok hcall e st)
    simp only [tyS]
    rcases hp : single (ty P call e st) with ⟨st1, re⟩
    rw [hp] at hi
    obtain ⟨h1, h2, h3, h4⟩ := hi
    simp only at h1 h2 h3 h4 ⊢
    cases re with
    | none =>
      refine .plain h1 h2 h3 rfl fun hr => ?_
      obtain ⟨t, ht, _⟩ := h4 hr
      cases ht
    | some t =>
      refine .plain (h1.need _) ((need_env _ _).trans h2) ((need_ret _ _).trans h3) rfl ?_
      intro hr R Q S port ret hs hE hF
      obtain ⟨g1, g2⟩ := need_rep hr
      obtain ⟨_, ht, h5⟩ := h4 g2
      cases ht
      have := h5 R Q S ((Step.refl (P := P) st1).need _ |>.sup hs) hE
      rcases t with m | u
      · exact .under e m _ this
      · simp [FT.isTpl] at g1

/-! ### Calls -/

theorem free_flat {P : Prog} (s : Stmt) (h : freeS P s = true) : flatNames s = [] := by
  induction s with
  | decl k x ds =>
    simp only [freeS, Bool.and_eq_true, decide_eq_true_eq] at h
    rw [h.1]; rfl
  | seq a b iha ihb => simp only [freeS, Bool.and_eq_true] at h; simp [flatNames, iha h.1, ihb h.2]
  | ite c a b iha ihb => simp only [freeS, Bool.and_eq_true] at h; simp [flatNames, iha h.1.2, ihb h.2]
  | loop c b ihb => simp only [freeS, Bool.and_eq_true] at h; simp [flatNames, ihb h.2]
  | block b ihb => simp only [freeS] at h; simp [flatNames, ihb h]
  | _ => rfl

theorem ports_sub (s : Stmt) : ((portsOf s).map Prod.fst).Sublist (flatNames s) := by
  induction s with
  | decl k x ds =>
    cases k with
    | var => simp [portsOf]
    | comp i => simp [portsOf]
    | sig io =>
      simp only [portsOf, flatNames]
      split <;> simp
  | seq a b iha ihb => simp only [portsOf, flatNames, List.map_append]; exact iha.append ihb
  | ite c a b iha ihb => simp only [portsOf, flatNames, List.map_append]; exact iha.append ihb
  | loop c b ihb => exact ihb
  | block b ihb => exact ihb
  | _ => simp [portsOf]

theorem ports_io (s : Stmt) : ∀ p ∈ portsOf s, p.2.1 ≠ .inter := by
  induction s with
  | decl k x ds =>
    cases k with
    | var => simp [portsOf]
    | comp i => simp [portsOf]
    | sig io =>
      simp only [portsOf]
      split
      · simp
      · rename_i h; intro p hp; simp at hp; subst hp; exact h
  | seq a b iha ihb =>
    intro p hp; simp only [portsOf, List.mem_append] at hp
    rcases hp with h | h
    · exact iha p h
    · exact ihb p h
  | ite c a b iha ihb =>
    intro p hp; simp only [portsOf, List.mem_append] at hp
    rcases hp with h | h
    · exact iha p h
    · exact ihb p h
  | loop c b ihb => exact ihb
  | block b ihb => exact ihb
  | _ => simp [portsOf]

theorem findPort {l : List (Nat × Io × Nat)} (hn : (l.map Prod.fst).Nodup) {s : Nat} {io : Io} {n : Nat}
    (h : (s, io, n) ∈ l) (io' : Io) :
    (l.findSome? fun e => if e.1 = s ∧ e.2.1 = io' then some e.2.2 else none) = if io = io' then some n else none := by
  induction l with
  | nil => cases h
  | cons e l ih =>
    simp only [List.map_cons, List.nodup_cons] at hn
    rcases List.mem_cons.mp h with rfl | h
    · by_cases hio : io = io'
      · simp [List.findSome?_cons, hio]
      · simp only [List.findSome?_cons, hio, and_false, if_false]
        rw [List.findSome?_eq_none_iff]
        intro e he
        have : e.1 ≠ s := fun h => hn.1 (h ▸ List.mem_map.mpr ⟨e, he, rfl⟩)
        simp [this]
    · have : e.1 ≠ s := fun h' => hn.1 (h' ▸ List.mem_map.mpr ⟨_, h, rfl⟩)
      simp only [List.findSome?_cons, this, false_and, if_false]
      exact ih hn.2 h

theorem portGet_once {s : Stmt} (hn : (flatNames s).Nodup) : ∀ p ∈ portsOf s, portGet s p.1 = some p.2.2 := by
  rintro ⟨x, io, n⟩ hp
  have hnd : ((portsOf s).reverse.map Prod.fst).Nodup := by
    rw [List.map_reverse]
    refine (List.reverse_perm _).nodup_iff.mpr ?_
    exact hn.sublist (ports_sub s)
  have hf := findPort hnd (List.mem_reverse.mpr hp)
  have hio := ports_io s _ hp
  simp only [portGet, hf]
  cases io with
  | input => simp
  | output => simp
  | inter => exact absurd rfl hio

theorem get_mem {α : Type} {l : List (Nat × α)} {x : Nat} {a : α} (h : get l x = some a) : (x, a) ∈ l := by
  induction l with
  | nil => cases h
  | cons e l ih =>
    obtain ⟨y, b⟩ := e
    simp only [get] at h
    by_cases hy : y = x
    · rw [if_pos hy] at h
      injection h with h
      subst hy; subst h
      exact List.mem_cons_self
    · rw [if_neg hy] at h
      exact List.mem_cons_of_mem _ (ih h)

theorem regGet_mem {l : List ((Nat × List Nat) × Nat)} {k : Nat × List Nat} {r : Nat} (h : regGet l k = some r) :
    (k, r) ∈ l := by
  induction l with
  | nil => cases h
  | cons e l ih =>
    obtain ⟨y, b⟩ := e
    simp only [regGet] at h
    by_cases hy : y = k
    · rw [if_pos hy] at h
      injection h with h
      subst hy; subst h
      exact List.mem_cons_self
    · rw [if_neg hy] at h
      exact List.mem_cons_of_mem _ (ih h)

theorem getB_params {D : Def} {ds : List Nat} {x : Nat} (h : getB [(D.params.zip ds).reverse] x ≠ none) : x ∈ D.params := by
  simp only [getB] at h
  cases hg : get (D.params.zip ds).reverse x with
  | none => rw [hg] at h; exact absurd rfl h
  | some d =>
    have := get_mem hg
    rw [List.mem_reverse] at this
    exact (List.of_mem_zip this).1

theorem callF_ok {P : Prog} {given : Nat → List Nat → Guess} (hst : structured P = true)
    (honce : ∀ t ∈ P.tpls, Once t.2) : ∀ fuel, CallSpec P (callF P given fuel) := by
  simp only [structured, Bool.and_eq_true, List.all_eq_true] at hst
  intro fuel
  induction fuel with
  | zero =>
    intro f dims st D _ _
    exact ⟨(Step.refl _).add _, rfl, rfl, fun hr => absurd hr (add_ne _ _)⟩
  | succ fuel ih =>
    intro f dims st D hD hl
    unfold callF
    unfold lookup at hD
    cases hfn : get P.fns f with
    | some D' =>
      rw [hfn] at hD
      injection hD with hD
      subst hD
      simp only [Option.isSome_some, if_true]
      cases hreg : regGet st.reg (f, dims) with
      | some r => exact ⟨Step.refl _, rfl, rfl, fun _ => ⟨r, regGet_mem hreg, rfl⟩⟩
      | none =>
        simp only
        cases given f dims with
        | panic => exact ⟨(Step.refl _).add _, rfl, rfl, fun hr => absurd hr (add_ne _ _)⟩
        | unable => exact ⟨(Step.refl _).add _, rfl, rfl, fun hr => absurd hr (add_ne _ _)⟩
        | dim r =>
          simp only
          have hb := tyS_ok ih D'.body
            { st with reg := st.reg ++ [((f, dims), r)], env := paramsEnv D' dims, ret := some r }
          generalize tyS P (callF P given fuel) D'.body
            { st with reg := st.reg ++ [((f, dims), r)], env := paramsEnv D' dims, ret := some r } = st' at hb ⊢
          have hfree := hst.1 _ (get_mem hfn)
          have hflat : st'.env.flat = [] := by
            have := hb.names
            rw [free_flat _ hfree] at this
            simpa [paramsEnv, keys] using this
          refine ⟨⟨hb.step.rep, fun e he => hb.step.reg e (List.mem_append_left _ he), hb.step.reached, ?_⟩, trivial, trivial, ?_⟩
          · intro hr R Q hs f' ds' r' hm
            rcases hb.step.new hr R Q hs f' ds' r' hm with h | h
            · rcases List.mem_append.mp h with h | h
              · exact .inl h
              · right
                simp only [List.mem_singleton, Prod.mk.injEq] at h
                obtain ⟨⟨rfl, rfl⟩, rfl⟩ := h
                unfold BodyOk
                rw [hfn]
                refine ⟨_, hb.ok hr R Q [] (fun _ => none) (some r') hs (by simp) (by rw [hflat]; simp)
                  (by rw [hflat]; intro e he; cases he) (fun _ _ h => by cases h)
                  ⟨fun _ _ h => (by cases h), ?_, .inr ⟨rfl, hfree, rfl⟩⟩⟩
                intro p hp
                have := (ports_sub D'.body).subset (List.mem_map.mpr ⟨p, hp, rfl⟩)
                rw [free_flat _ hfree] at this
                cases this
            · exact .inr h
          · intro _
            exact ⟨r, hb.step.reg _ (by simp), rfl⟩
    | none =>
      rw [hfn] at hD
      simp only at hD
      simp only [Option.isSome_none, Bool.false_eq_true, if_false]
      rw [hD]
      simp only
      cases hreg : regGet st.reg (f, dims) with
      | some r => exact ⟨Step.refl _, rfl, rfl, fun _ => ⟨r, regGet_mem hreg, rfl⟩⟩
      | none =>
        simp only
        have hb := tyS_ok ih D.body { st with reg := st.reg ++ [((f, dims), 0)], env := paramsEnv D dims }
        generalize tyS P (callF P given fuel) D.body
          { st with reg := st.reg ++ [((f, dims), 0)], env := paramsEnv D dims } = st' at hb ⊢
        have hnr := hst.2 _ (get_mem hD)
        obtain ⟨ho1, ho2⟩ := honce _ (get_mem hD)
        simp only at ho1 ho2
        have hnames : keys st'.env.flat = (flatNames D.body).reverse := by
          rw [hb.names]; simp [paramsEnv, keys]
        have hmem : ∀ x, x ∈ keys st'.env.flat → x ∈ flatNames D.body := by
          intro x hx; rw [hnames] at hx; exact List.mem_reverse.mp hx
        have hnd : (keys st'.env.flat).Nodup := by rw [hnames]; exact (List.reverse_perm _).nodup_iff.mpr ho1
        refine ⟨⟨hb.step.rep, fun e he => hb.step.reg e (List.mem_append_left _ he), hb.step.reached, ?_⟩, trivial, hb.ret, ?_⟩
        · intro hr R Q hs f' ds' r' hm
          rcases hb.step.new hr R Q hs f' ds' r' hm with h | h
          · rcases List.mem_append.mp h with h | h
            · exact .inl h
            · right
              simp only [List.mem_singleton, Prod.mk.injEq] at h
              obtain ⟨⟨rfl, rfl⟩, rfl⟩ := h
              unfold BodyOk
              rw [hfn]
              intro D' hD'
              rw [hD] at hD'
              injection hD' with hD'
              subst hD'
              refine ⟨st'.env.flat, _, hnd, hb.ok hr R Q _ (portGet D.body) none hs hnd hnd (Ext.refl _) ?_
                ⟨?_, portGet_once ho1, .inl hnr⟩⟩
              · intro x hx hk
                exact (ho2 x (hmem x hk)).2 (getB_params hx)
              · intro x hx hk
                exact (ho2 x (hmem x hk)).1 hx
          · exact .inr h
        · intro _
          exact ⟨0, hb.step.reg _ (by simp), trivial⟩

/-- An accepted program is typed. -/
theorem check_typed {P : Prog} {given : Nat → List Nat → Guess} {fuel : Nat} (hst : structured P = true)
    (honce : ∀ t ∈ P.tpls, Once t.2) (h : (check P given fuel).rep = []) :
    ∃ R, Closed P R (· ∈ (check P given fuel).reached) ∧
      ∃ ts, HasTy P R (· ∈ (check P given fuel).reached) [] [[]] P.main ts := by
  have hm := ty_ok (callF_ok (given := given) hst honce fuel) P.main St.init
  unfold check at h ⊢
  rcases hp : ty P (callF P given fuel) P.main St.init with ⟨st, r⟩
  rw [hp] at hm h
  obtain ⟨h1, h2, h3, h4⟩ := hm
  simp only at h1 h2 h3 h4 h ⊢
  have key : ∀ st' : St, st'.rep = [] → st'.reg = st.reg → st'.reached = st.reached → (st'.rep = [] → st.rep = []) →
      ∃ R, Closed P R (· ∈ st'.reached) ∧ ∃ ts, HasTy P R (· ∈ st'.reached) [] [[]] P.main ts := by
    intro st' hr hreg hreach hrep
    have hr0 := hrep hr
    have hs : Sup (fun f ds r => ((f, ds), r) ∈ st.reg) (· ∈ st'.reached) st :=
      ⟨fun f ds r h => h, fun f hf => by rw [hreach]; exact hf⟩
    refine ⟨fun f ds r => ((f, ds), r) ∈ st.reg, ?_, ?_⟩
    · intro f ds r hm
      rcases h1.new hr0 _ _ hs f ds r hm with h | h
      · cases h
      · exact h
    · obtain ⟨ts, _, h5⟩ := h4 hr0
      exact ⟨ts, h5 _ _ [] hs ⟨by simp, fun e he => (by cases he), fun _ _ h => (by cases h)⟩⟩
  cases r with
  | none => exact key st h rfl rfl id
  | some ts =>
    simp only at h ⊢
    cases hmain : P.main with
    | call t es =>
      rw [hmain] at h key
      exact key _ h (need_reg _ _) (need_reached _ _) fun h => (need_rep h).2
    | _ => rw [hmain] at h; exact absurd h (add_ne _ _)

end Verif.Types
