import Verif.FiltersLemmas
import Verif.ExecTame

/-!
The records of symbolic execution are right for every concrete run.
-/

set_option linter.unusedSectionVars false
set_option linter.unusedSimpArgs false
set_option linter.unusedVariables false

namespace Verif.Filters

open Verif.ModArith Verif.Algebra Verif.Exec Verif.Analysis

/-! ### The execution with records is the execution of `Verif.Exec` -/

theorem conditionalV_proj {field : Int} {c : LExpr} {t : St → ExV} {e : Option (St → ExV)}
    {t0 : St → Ex (St × Option V)} {e0 : Option (St → Ex (St × Option V))}
    (ht : ∀ st, t0 st = (t st).map fun x => (x.1, none))
    (he : (e = none ∧ e0 = none) ∨ ∃ f f0, e = some f ∧ e0 = some f0 ∧
      ∀ st, f0 st = (f st).map fun x => (x.1, none)) (st : St) :
    conditional field c.erase t0 e0 st =
      (conditionalV field c t e st).map fun x => (x.1, none, x.2.2.2) := by
  unfold conditional conditionalV
  cases eval field st.sigs st.env c.erase with
  | error er => rfl
  | ok vc =>
    simp only
    cases getBool vc field with
    | some b =>
      cases b with
      | true =>
        simp only [ht]
        cases t st <;> rfl
      | false =>
        rcases he with ⟨rfl, rfl⟩ | ⟨f, f0, rfl, rfl, hf⟩
        · rfl
        · simp only [hf]
          cases f st <;> rfl
    | none =>
      simp only [ht]
      cases t (enter st) with
      | error er => rfl
      | ok x =>
        obtain ⟨st1, l1, s1⟩ := x
        rcases he with ⟨rfl, rfl⟩ | ⟨f, f0, rfl, rfl, hf⟩
        · rfl
        · simp only [Except.map]
          cases st1.conds.getLast? with
          | none => rfl
          | some last =>
            simp only [hf]
            cases f (flip last st1) <;> rfl

theorem plain_eq {step : St → Ex (St × Visits × Visits × Option Bool)} (st : St) :
    plain step st = (step st).map fun x => (x.1, none, x.2.2.2) := by
  unfold plain
  cases step st <;> rfl

theorem whileLoopV_proj {step : St → Ex (St × Visits × Visits × Option Bool)}
    {step0 : St → Ex (St × Option V × Option Bool)} (h : step0 = plain step) :
    ∀ n st, whileLoop step0 n st = (whileLoopV step n st).map fun x => (x.1, none)
  | 0, st => rfl
  | n + 1, st => by
    rw [whileLoop, whileLoopV]
    subst h
    rw [plain_eq]
    cases step st with
    | error e => rfl
    | ok x =>
      obtain ⟨st1, l1, s1, cr⟩ := x
      simp only [Except.map]
      rcases cr with _ | b
      · simp only
        rw [plain_eq]
        cases step st1 with
        | error e => rfl
        | ok y => rfl
      · cases b with
        | false => rfl
        | true =>
          simp only
          rw [whileLoopV_proj rfl n (endIteration st1)]
          cases whileLoopV step n (endIteration st1) <;> rfl

theorem execV_proj (fuel : Nat) (field : Int) : ∀ (s : LStmt) (st : St),
    exec fuel field s.erase st = (execV fuel field s st).map fun x => (x.1, none)
  | .nil, st => rfl
  | .cons a b, st => by
    simp only [LStmt.erase, exec, execV]
    rw [execV_proj fuel field a st]
    cases execV fuel field a st with
    | error e => rfl
    | ok x =>
      simp only [Except.map]
      rw [execV_proj fuel field b x.1]
      cases execV fuel field b x.1 <;> rfl
  | .decl i x, st => by
    simp only [LStmt.erase, execV]
    simp only [exec]
    cases envAdd st.env x .nonQuadratic <;> rfl
  | .assign i x e, st => by
    simp only [LStmt.erase, execV]
    simp only [exec]
    cases eval field st.sigs st.env e.erase with
    | error e => rfl
    | ok v =>
      simp only
      cases envSet st.env x (if st.unknown = true then AExpr.nonQuadratic else v) <;> rfl
  | .sassign i x e, st => by
    simp only [LStmt.erase, execV]
    simp only [exec]
    cases eval field st.sigs st.env e.erase with
    | error e => rfl
    | ok v =>
      simp only
      cases assignSignal x st <;> rfl
  | .cassign i x e, st => by
    simp only [LStmt.erase, execV]
    have key : ∀ r, exec fuel field (.cassign x e.erase) st = .ok r → r.2 = none := by
      intro r hr
      simp only [exec] at hr
      split at hr
      · cases hr
      · split at hr
        · cases hr
        · split at hr
          · cases hr
          · split at hr
            · cases hr
            · split at hr
              · cases hr
              · simp only [Except.ok.injEq] at hr; subst hr; rfl
    cases hx : exec fuel field (.cassign x e.erase) st with
    | error er => rfl
    | ok r =>
      have := key r hx
      obtain ⟨r1, r2⟩ := r
      simp only at this
      subst this
      rfl
  | .check i x e, st => by
    simp only [LStmt.erase, execV]
    have key : ∀ r, exec fuel field (.check x.erase e.erase) st = .ok r → r.2 = none := by
      intro r hr
      simp only [exec] at hr
      split at hr
      · cases hr
      · split at hr
        · cases hr
        · split at hr
          · cases hr
          · split at hr
            · cases hr
            · simp only [Except.ok.injEq] at hr; subst hr; rfl
    cases hx : exec fuel field (.check x.erase e.erase) st with
    | error er => rfl
    | ok r =>
      have := key r hx
      obtain ⟨r1, r2⟩ := r
      simp only at this
      subst this
      rfl
  | .ifThen i c t, st => by
    simp only [LStmt.erase, exec, execV]
    rw [conditionalV_proj (t := execV fuel field t) (e := none) (fun st => execV_proj fuel field t st)
      (.inl ⟨rfl, rfl⟩)]
    cases conditionalV field c (execV fuel field t) none st <;> rfl
  | .ifElse i c t e, st => by
    simp only [LStmt.erase, exec, execV]
    rw [conditionalV_proj (t := execV fuel field t) (e := some (execV fuel field e))
      (fun st => execV_proj fuel field t st)
      (.inr ⟨_, _, rfl, rfl, fun st => execV_proj fuel field e st⟩)]
    cases conditionalV field c (execV fuel field t) (some (execV fuel field e)) st <;> rfl
  | .while i c b, st => by
    simp only [LStmt.erase, exec, execV]
    rw [whileLoopV_proj (step := conditionalV field c (execV fuel field b) none) (by
      funext st'
      rw [plain_eq, conditionalV_proj (t := execV fuel field b) (e := none)
        (fun st => execV_proj fuel field b st) (.inl ⟨rfl, rfl⟩)])]
    cases whileLoopV (conditionalV field c (execV fuel field b) none) fuel (startLoop st) <;> rfl
  | .block i b, st => by
    simp only [LStmt.erase, exec, execV]
    rw [execV_proj fuel field b]
    cases execV fuel field b { st with env := [] :: st.env } <;> rfl
  | .init i b, st => by
    simp only [LStmt.erase, execV]
    rw [execV_proj fuel field b]
    cases execV fuel field b st <;> rfl

theorem execV_exec {fuel : Nat} {field : Int} {s : LStmt} {st st' : St} {l sp : Visits}
    (h : execV fuel field s st = .ok (st', l, sp)) : exec fuel field s.erase st = .ok (st', none) := by
  rw [execV_proj, h]; rfl

/-! ### Records that cover visits -/

/-- The analysis is right for the given visits. -/
structure Covers (A : Analysis) (l : Visits) : Prop where
  reached : ∀ i ∈ l.reached, isReached A i = .ok true
  values : ∀ i v, (i, v) ∈ l.values → ∀ n, readComputed A i = .ok (some n) → v = .number n

theorem Covers.append {A : Analysis} {a b : Visits} : Covers A (a ++ b) ↔ Covers A a ∧ Covers A b := by
  constructor
  · rintro ⟨h1, h2⟩
    exact ⟨⟨fun i hi => h1 i (List.mem_append_left _ hi), fun i v hi => h2 i v (List.mem_append_left _ hi)⟩,
      ⟨fun i hi => h1 i (List.mem_append_right _ hi), fun i v hi => h2 i v (List.mem_append_right _ hi)⟩⟩
  · rintro ⟨⟨h1, h2⟩, h3, h4⟩
    refine ⟨fun i hi => ?_, fun i v hi => ?_⟩
    · exact (List.mem_append.1 hi).elim (h1 i) (h3 i)
    · exact (List.mem_append.1 hi).elim (h2 i v) (h4 i v)

variable {A : Analysis} {p : Nat} {w : Nat → Int}

section
variable (hp : 1 < p) (hw : ∀ s, 0 ≤ w s ∧ w s < p) (h1 : w 0 = 1)
include hp hw h1

/-- The recorded value is right where the symbolic value is covered. -/
theorem right_of {sigs : Nat → AState} {env : List (List (Nat × V))} {ce : CEnv} {e : LExpr}
    (hlit : e.erase.Lits p) (hE : RelE p (rho p w) env ce)
    (hcov : ∀ n, readComputed A e.id = .ok (some n) → val p sigs env e = .number n) :
    Right A p w ce e := by
  intro v n hv hr
  have hn := hcov n hr
  unfold val at hn
  cases hev : eval p sigs env e.erase with
  | error er => rw [hev] at hn; cases hn
  | ok u =>
    rw [hev] at hn
    simp only at hn
    exact (eval_rel hp hw h1 hE e.erase hlit hev hv).number n hn

theorem everywhere_agree {sigs : Nat → AState} {env : List (List (Nat × V))} {ce : CEnv}
    (hE : RelE p (rho p w) env ce) : ∀ (e : LExpr), e.erase.Lits p →
      (∀ i v, (i, v) ∈ everywhere p sigs env e → ∀ n, readComputed A i = .ok (some n) → v = .number n) →
      AgreeE A p w ce e
  | .num i v, hl, hc => right_of hp hw h1 (sigs := sigs) hl hE fun n hn => hc i _ (by simp [everywhere]) n hn
  | .var i v, hl, hc => right_of hp hw h1 (sigs := sigs) hl hE fun n hn => hc i _ (by simp [everywhere]) n hn
  | .sig i v, hl, hc => right_of hp hw h1 (sigs := sigs) hl hE fun n hn => hc i _ (by simp [everywhere]) n hn
  | .bin i op l r, hl, hc => by
    simp only [everywhere, List.mem_append] at hc
    exact ⟨everywhere_agree hE l hl.1 fun i v hi => hc i v (.inl (.inl hi)),
      everywhere_agree hE r hl.2 fun i v hi => hc i v (.inl (.inr hi)),
      right_of hp hw h1 (sigs := sigs) hl hE fun n hn => hc i _ (.inr (by simp)) n hn⟩
  | .un i op x, hl, hc => by
    simp only [everywhere, List.mem_append] at hc
    exact ⟨everywhere_agree hE x hl fun i v hi => hc i v (.inl hi),
      right_of hp hw h1 (sigs := sigs) hl hE fun n hn => hc i _ (.inr (by simp)) n hn⟩
  | .ite i c a b, hl, hc => by
    simp only [everywhere, List.mem_append] at hc
    exact ⟨everywhere_agree hE c hl.1 fun i v hi => hc i v (.inl (.inl (.inl hi))),
      fun _ _ _ => everywhere_agree hE a hl.2.1 fun i v hi => hc i v (.inl (.inl (.inr hi))),
      fun _ _ _ => everywhere_agree hE b hl.2.2 fun i v hi => hc i v (.inl (.inr hi)),
      right_of hp hw h1 (sigs := sigs) hl hE fun n hn => hc i _ (.inr (by simp)) n hn⟩

theorem visits_agree {sigs : Nat → AState} {env : List (List (Nat × V))} {ce : CEnv}
    (hE : RelE p (rho p w) env ce) : ∀ (e : LExpr), e.erase.Lits p →
      (∀ i v, (i, v) ∈ visits p sigs env e → ∀ n, readComputed A i = .ok (some n) → v = .number n) →
      (∀ i v, (i, v) ∈ skipped p sigs env e → ∀ n, readComputed A i = .ok (some n) → v = .number n) →
      AgreeE A p w ce e
  | .num i v, hl, hc, hs => right_of hp hw h1 (sigs := sigs) hl hE fun n hn => hc i _ (by simp [visits]) n hn
  | .var i v, hl, hc, hs => right_of hp hw h1 (sigs := sigs) hl hE fun n hn => hc i _ (by simp [visits]) n hn
  | .sig i v, hl, hc, hs => right_of hp hw h1 (sigs := sigs) hl hE fun n hn => hc i _ (by simp [visits]) n hn
  | .bin i op l r, hl, hc, hs => by
    simp only [visits, skipped, List.mem_append] at hc hs
    exact ⟨visits_agree hE l hl.1 (fun i v hi => hc i v (.inl (.inl hi))) (fun i v hi => hs i v (.inl hi)),
      visits_agree hE r hl.2 (fun i v hi => hc i v (.inl (.inr hi))) (fun i v hi => hs i v (.inr hi)),
      right_of hp hw h1 (sigs := sigs) hl hE fun n hn => hc i _ (.inr (by simp)) n hn⟩
  | .un i op x, hl, hc, hs => by
    simp only [visits, skipped, List.mem_append] at hc hs
    exact ⟨visits_agree hE x hl (fun i v hi => hc i v (.inl hi)) hs,
      right_of hp hw h1 (sigs := sigs) hl hE fun n hn => hc i _ (.inr (by simp)) n hn⟩
  | .ite i c a b, hl, hc, hs => by
    simp only [visits, skipped, List.mem_append] at hc hs
    have known : ∀ v q, getBool (val p sigs env c) p = some q → cEval p w ce c.erase = some v →
        asBool v p = q := by
      intro v q hg hv
      unfold val at hg
      cases hev : eval p sigs env c.erase with
      | error er => rw [hev] at hg; simp [getBool] at hg
      | ok u =>
        rw [hev] at hg
        exact getBool_rel (eval_rel hp hw h1 hE c.erase hl.1 hev hv) hg
    refine ⟨visits_agree hE c hl.1 (fun i v hi => hc i v (.inl (.inl hi))) (fun i v hi => hs i v (.inl hi)),
      ?_, ?_, right_of hp hw h1 (sigs := sigs) hl hE fun n hn => hc i _ (.inr (by simp)) n hn⟩
    · intro v hv hb
      cases hg : getBool (val p sigs env c) p with
      | none =>
        rw [hg] at hs
        exact everywhere_agree hp hw h1 hE a hl.2.1 fun i v hi =>
          hs i v (.inr (List.mem_append_left _ hi))
      | some q =>
        have := known v q hg hv
        rw [hb] at this
        subst this
        rw [hg] at hs hc
        exact visits_agree hE a hl.2.1 (fun i v hi => hc i v (.inl (.inr hi))) (fun i v hi => hs i v (.inr hi))
    · intro v hv hb
      cases hg : getBool (val p sigs env c) p with
      | none =>
        rw [hg] at hs
        exact everywhere_agree hp hw h1 hE b hl.2.2 fun i v hi =>
          hs i v (.inr (List.mem_append_right _ hi))
      | some q =>
        have := known v q hg hv
        rw [hb] at this
        subst this
        rw [hg] at hs hc
        exact visits_agree hE b hl.2.2 (fun i v hi => hc i v (.inl (.inr hi))) (fun i v hi => hs i v (.inr hi))

theorem seen_agree {st : St} {ce : CEnv} {e : LExpr} (hE : RelE p (rho p w) st.env ce)
    (hl : e.erase.Lits p) (hc : Covers A (seen p st e)) (hs : Covers A (unseen p st e)) :
    AgreeE A p w ce e :=
  visits_agree hp hw h1 hE e hl hc.values hs.values

/-- Conditionals. -/
theorem conditionalV_agree {c : LExpr} (hlit : c.erase.Lits p) {t : St → ExV} {e : Option (St → ExV)}
    {t0 : St → Ex (St × Option V)} (hpt : ∀ st, t0 st = (t st).map fun x => (x.1, none)) (ht : Good t0)
    {agreeT agreeE : CEnv → Prop}
    (hT : ∀ st st' l s ce, t st = .ok (st', l, s) → RelE p (rho p w) st.env ce → st'.unstable = false →
      Covers A l → Covers A s → agreeT ce)
    (hF : ∀ f, e = some f → (∀ st st' l s, f st = .ok (st', l, s) → st'.unstable = false → st.unstable = false) ∧
      ∀ st st' l s ce, f st = .ok (st', l, s) → RelE p (rho p w) st.env ce →
      st'.unstable = false → Covers A l → Covers A s → agreeE ce)
    {st st' : St} {l s : Visits} {cr : Option Bool} {ce : CEnv}
    (h : conditionalV p c t e st = .ok (st', l, s, cr)) (hE : RelE p (rho p w) st.env ce)
    (hun : st'.unstable = false) (hl : Covers A l) (hs : Covers A s) :
    AgreeE A p w ce c ∧
    (∀ v, cEval p w ce c.erase = some v → asBool v p = true → agreeT ce) ∧
    (e ≠ none → ∀ v, cEval p w ce c.erase = some v → asBool v p = false → agreeE ce) := by
  unfold conditionalV at h
  split at h
  · cases h
  · rename_i vc hvc
    have known : ∀ q v, getBool vc p = some q → cEval p w ce c.erase = some v → asBool v p = q :=
      fun q v hg hv => getBool_rel (eval_rel hp hw h1 hE c.erase hlit hvc hv) hg
    split at h
    · rename_i hg
      split at h
      · cases h
      · rename_i st1 l1 s1 hx
        simp only [Except.ok.injEq, Prod.mk.injEq] at h
        obtain ⟨rfl, rfl, rfl, rfl⟩ := h
        obtain ⟨a1, a2⟩ := Covers.append.1 hl
        obtain ⟨b1, b2⟩ := Covers.append.1 hs
        refine ⟨seen_agree hp hw h1 hE hlit a1 b1, fun v hv hb => hT _ _ _ _ _ hx hE hun a2 b2, ?_⟩
        intro _ v hv hb
        rw [known _ _ hg hv] at hb; cases hb
    · rename_i hg
      split at h
      · simp only [Except.ok.injEq, Prod.mk.injEq] at h
        obtain ⟨rfl, rfl, rfl, rfl⟩ := h
        refine ⟨seen_agree hp hw h1 hE hlit hl hs, fun v hv hb => ?_, fun h => absurd rfl h⟩
        rw [known _ _ hg hv] at hb; cases hb
      · rename_i f
        split at h
        · cases h
        · rename_i st1 l1 s1 hx
          simp only [Except.ok.injEq, Prod.mk.injEq] at h
          obtain ⟨rfl, rfl, rfl, rfl⟩ := h
          obtain ⟨a1, a2⟩ := Covers.append.1 hl
          obtain ⟨b1, b2⟩ := Covers.append.1 hs
          refine ⟨seen_agree hp hw h1 hE hlit a1 b1, fun v hv hb => ?_, ?_⟩
          · rw [known _ _ hg hv] at hb; cases hb
          · exact fun _ v hv hb => (hF f rfl).2 _ _ _ _ _ hx hE hun a2 b2
    · split at h
      · cases h
      · rename_i st1 l1 s1 hx
        have hx0 : t0 (enter st) = .ok (st1, none) := by rw [hpt, hx]; rfl
        obtain ⟨g1, _, gu⟩ := ht.forget _ _ _ rfl hx0
        split at h
        · simp only [Except.ok.injEq, Prod.mk.injEq] at h
          obtain ⟨rfl, rfl, rfl, rfl⟩ := h
          obtain ⟨a1, a2⟩ := Covers.append.1 hl
          obtain ⟨b1, b2⟩ := Covers.append.1 hs
          exact ⟨seen_agree hp hw h1 hE hlit a1 b1, fun v hv hb => hT _ _ _ _ _ hx hE hun a2 b2,
            fun h => absurd rfl h⟩
        · rename_i f
          split at h
          · cases h
          · rename_i last hlast
            split at h
            · cases h
            · rename_i st2 l2 s2 hy
              simp only [Except.ok.injEq, Prod.mk.injEq] at h
              obtain ⟨rfl, rfl, rfl, rfl⟩ := h
              obtain ⟨a12, a3⟩ := Covers.append.1 hl
              obtain ⟨a1, a2⟩ := Covers.append.1 a12
              obtain ⟨b12, b3⟩ := Covers.append.1 hs
              obtain ⟨b1, b2⟩ := Covers.append.1 b12
              have hun2 : st2.unstable = false := hun
              have hun1 : st1.unstable = false := (hF f rfl).1 (Exec.flip last st1) _ _ _ hy hun2
              exact ⟨seen_agree hp hw h1 hE hlit a1 b1, fun v hv hb => hT _ _ _ _ _ hx hE hun1 a2 b2,
                fun _ v hv hb => (hF f rfl).2 _ _ _ _ _ hy (rel_smash hE g1.1) hun2 a3 b3⟩

/-- Concrete iterations related to one pass of the executor that changes nothing. -/
theorem stable_agree {c : Expr} {agreeC agreeB : CEnv → Prop}
    {body : CEnv → Option (CEnv × Trace × Option Int)} {env : List (List (Nat × V))}
    (hA : ∀ ce, RelE p (rho p w) env ce →
      agreeC ce ∧ ∀ v, cEval p w ce c = some v → asBool v p = true → agreeB ce)
    (hB : ∀ ce v ce1 t1 r1, RelE p (rho p w) env ce → cEval p w ce c = some v → asBool v p = true →
      body ce = some (ce1, t1, r1) → RelE p (rho p w) env ce1) :
    ∀ k ce, RelE p (rho p w) env ce → AgreeLoop p w c agreeC agreeB body k ce
  | 0, _, _ => trivial
  | k + 1, ce, hE => ⟨(hA ce hE).1, fun v hv hb => ⟨(hA ce hE).2 v hv hb, fun ce1 t1 r1 hx =>
      stable_agree hA hB k ce1 (hB ce v ce1 t1 r1 hE hv hb hx)⟩⟩

/-- Loops. -/
theorem whileLoopV_agree {c : LExpr} (hlit : c.erase.Lits p) {t : St → ExV}
    {t0 : St → Ex (St × Option V)} (hpt : ∀ st, t0 st = (t st).map fun x => (x.1, none)) (ht : Good t0)
    {body : CEnv → Option (CEnv × Trace × Option Int)} (hts : Simulates p w t0 body)
    {agreeB : CEnv → Prop}
    (hT : ∀ st st' l s ce, t st = .ok (st', l, s) → RelE p (rho p w) st.env ce → st'.unstable = false →
      Covers A l → Covers A s → agreeB ce) :
    ∀ (n : Nat) (st st' : St) (l s : Visits) (ce : CEnv),
      whileLoopV (conditionalV p c t none) n st = .ok (st', l, s) → RelE p (rho p w) st.env ce →
      st'.unstable = false → Covers A l → Covers A s →
      ∀ k, AgreeLoop p w c.erase (fun env => AgreeE A p w env c) agreeB body k ce
  | 0, st, st', l, s, ce, h, hE, hun, hl, hs => by simp [whileLoopV] at h
  | n + 1, st, st', l, s, ce, h, hE, hun, hl, hs => by
    have hproj : ∀ st, conditional p c.erase t0 none st =
        (conditionalV p c t none st).map fun x => (x.1, none, x.2.2.2) :=
      fun st => conditionalV_proj hpt (.inl ⟨rfl, rfl⟩) st
    have hprojk : ∀ {st st1 l1 s1 cr}, conditionalV p c t none st = .ok (st1, l1, s1, cr) →
        conditional p c.erase t0 none st = .ok (st1, none, cr) := by
      intro st st1 l1 s1 cr hx
      rw [hproj, hx]; rfl
    have hstepf : ∀ st st' r cr, conditional p c.erase t0 none st = .ok (st', r, cr) → Facts st st' :=
      fun _ _ _ _ h => kept_facts.conditional ht.facts (by intro f hf; cases hf) h
    have agree : ∀ {st st1 l1 s1 cr ce}, conditionalV p c t none st = .ok (st1, l1, s1, cr) →
        RelE p (rho p w) st.env ce → st1.unstable = false → Covers A l1 → Covers A s1 →
        AgreeE A p w ce c ∧ ∀ v, cEval p w ce c.erase = some v → asBool v p = true → agreeB ce := by
      intro st st1 l1 s1 cr ce hx hE hun hl hs
      obtain ⟨g1, g2, _⟩ := conditionalV_agree hp hw h1 hlit hpt ht (agreeE := fun _ => True) hT
        (by intro f hf; cases hf) hx hE hun hl hs
      exact ⟨g1, g2⟩
    have sim : ∀ {st st1 l1 s1 cr ce v ce1 t1 r1}, conditionalV p c t none st = .ok (st1, l1, s1, cr) →
        RelE p (rho p w) st.env ce → st1.unstable = false → cEval p w ce c.erase = some v →
        asBool v p = true → body ce = some (ce1, t1, r1) → RelE p (rho p w) st1.env ce1 := by
      intro st st1 l1 s1 cr ce v ce1 t1 r1 hx hE hun hv hb hbody
      have hcc : cCond p w c.erase body cSkip ce = some (ce1, t1, r1) := by
        unfold cCond
        rw [hv]
        simp only [hb, if_true, hbody]
      exact ((conditional_sim hp hw h1 hlit ht hts (by intro f hf; cases hf) (fun _ => rfl) (hprojk hx) hcc hE
        hun).2 rfl).env
    rw [whileLoopV] at h
    split at h
    · cases h
    · -- unknown condition
      rename_i st1 l1 s1 hx
      obtain ⟨g1, _⟩ := conditional_forgets_unknown ht.forget (by intro f hf; cases hf) (hprojk hx)
      have cond_none : ∀ sta str rr cr, SmE st.env sta.env →
          conditional p c.erase t0 none sta = .ok (str, rr, cr) → cr = none := by
        intro sta str rr cr hs hy
        obtain ⟨vc, hvc, hcases⟩ := conditional_cases (hprojk hx)
        obtain ⟨vd, hvd, hcases'⟩ := conditional_cases hy
        have hb0 : getBool vc p = none := by
          rcases hcases with ⟨_, hcr, _⟩ | ⟨_, hcr, _⟩ | ⟨f, _, hcr, _⟩ | ⟨hb, _⟩ |
            ⟨f, s1, r1, last, s2, r2, hb, _⟩ <;> first | exact hb | cases hcr
        have hb1 := getBool_mono hs c.erase hvc hvd hb0
        rcases hcases' with ⟨hb, _⟩ | ⟨hb, _⟩ | ⟨f, hb, _⟩ | ⟨_, hcr, _⟩ |
            ⟨f, s1, r1, last, s2, r2, _, hcr, _⟩ <;>
          first | exact hcr | (rw [hb1] at hb; cases hb)
      split at h
      · cases h
      · rename_i st2 l2 s2 cr hy
        simp only [Except.ok.injEq, Prod.mk.injEq] at h
        obtain ⟨rfl, rfl, rfl⟩ := h
        have := cond_none _ _ _ _ g1.1 (hprojk hy)
        subst this
        obtain ⟨g2, _⟩ := conditional_forgets_unknown ht.forget (by intro f hf; cases hf) (hprojk hy)
        have hsm : SmE st.env st2.env := SmE.trans g1.1 g2.1
        obtain ⟨_, hs3⟩ := Covers.append.1 hs
        unfold markUnstable at hun
        cases hz : conditionalV p c t none st2 with
        | error er => simp [plain, hz] at hun
        | ok z =>
          obtain ⟨st3, l3, s3, cr3⟩ := z
          simp only [plain, hz, Bool.or_eq_false_iff, decide_eq_false_iff_not, ne_eq, not_not] at hun
          obtain ⟨⟨⟨_, hun3⟩, henv3⟩, hlog3⟩ := hun
          simp only [thirdPass, hz] at hs3
          obtain ⟨c1, c2⟩ := Covers.append.1 hs3
          intro k
          refine stable_agree hp hw h1 (env := st2.env) (fun ce hE => agree hz hE hun3 c1 c2) ?_ k ce (rel_smash hE hsm)
          intro ce v ce1 t1 r1 hE hv hb hbody
          have := sim hz hE hun3 hv hb hbody
          rw [henv3] at this
          exact this
    · -- condition known to be false
      rename_i st1 l1 s1 hx
      simp only [Except.ok.injEq, Prod.mk.injEq] at h
      obtain ⟨rfl, rfl, rfl⟩ := h
      intro k
      cases k with
      | zero => trivial
      | succ k =>
        obtain ⟨a1, a2⟩ := agree hx hE hun hl hs
        refine ⟨a1, fun v hv hb => ?_⟩
        obtain ⟨vc, hvc, hcases⟩ := conditional_cases (hprojk hx)
        have hrel := eval_rel hp hw h1 hE c.erase hlit hvc hv
        rcases hcases with ⟨_, hcr, _⟩ | ⟨hg, _⟩ | ⟨f, _, _, hf, _⟩ | ⟨_, hcr, _⟩ |
          ⟨f, s1, r1, last, s2, r2, _, hcr, _⟩
        · cases hcr
        · rw [getBool_rel hrel hg] at hb; cases hb
        · cases hf
        · cases hcr
        · cases hcr
    · -- condition known to be true
      rename_i st1 l1 s1 hx
      split at h
      · cases h
      · rename_i st2 l2 s2 hy
        simp only [Except.ok.injEq, Prod.mk.injEq] at h
        obtain ⟨rfl, rfl, rfl⟩ := h
        obtain ⟨a1, a2⟩ := Covers.append.1 hl
        obtain ⟨b1, b2⟩ := Covers.append.1 hs
        have hy0 : whileLoop (conditional p c.erase t0 none) n (endIteration st1) = .ok (st2, none) := by
          rw [whileLoopV_proj (step := conditionalV p c t none) (by funext st'; rw [plain_eq, hproj]), hy]
          rfl
        have hfl : Facts (endIteration st1) st2 := kept_facts.whileLoop hstepf _ _ _ _ hy0
        have hun1 : st1.unstable = false := hfl.unstable_false hun
        intro k
        cases k with
        | zero => trivial
        | succ k =>
          obtain ⟨q1, q2⟩ := agree hx hE hun1 a1 b1
          refine ⟨q1, fun v hv hb => ⟨q2 v hv hb, fun ce1 t1 r1 hbody => ?_⟩⟩
          have hE1 : RelE p (rho p w) (endIteration st1).env ce1 := sim (st1 := st1) hx hE hun1 hv hb hbody
          exact whileLoopV_agree hlit hpt ht hts hT n _ _ _ _ ce1 hy hE1 hun a2 b2 k

theorem execV_agree (fuel cfuel : Nat) : ∀ (s : LStmt) (b : Bool), s.erase.Scoped b → s.erase.Lits p →
    ∀ (st st' : St) (l sp : Visits) (ce : CEnv), execV fuel p s st = .ok (st', l, sp) →
      RelE p (rho p w) st.env ce → st'.unstable = false → Covers A l → Covers A sp →
      AgreeS A p w cfuel s ce
  | .nil, b, hsc, hlit, st, st', l, sp, ce, h, hE, hun, hl, hs => trivial
  | .cons a c, b, hsc, hlit, st, st', l, sp, ce, h, hE, hun, hl, hs => by
    simp only [execV] at h
    split at h
    · cases h
    · rename_i st1 l1 s1 hx
      split at h
      · cases h
      · rename_i st2 l2 s2 hy
        simp only [Except.ok.injEq, Prod.mk.injEq] at h
        obtain ⟨rfl, rfl, rfl⟩ := h
        obtain ⟨a1, a2⟩ := Covers.append.1 hl
        obtain ⟨b1, b2⟩ := Covers.append.1 hs
        have hun1 := (exec_facts (execV_exec hy)).unstable_false hun
        refine ⟨execV_agree fuel cfuel a b hsc.1 hlit.1 _ _ _ _ _ hx hE hun1 a1 b1, fun ce1 t r hr => ?_⟩
        have ho := (exec_sim hp hw h1 fuel cfuel a.erase b hsc.1 hlit.1 _ _ _ _ _ _ _ (execV_exec hx) hr hE
          hun1).2 rfl
        exact execV_agree fuel cfuel c b hsc.2 hlit.2 _ _ _ _ _ hy ho.env hun a2 b2
  | .decl i x, b, hsc, hlit, st, st', l, sp, ce, h, hE, hun, hl, hs => by
    simp only [execV] at h
    split at h
    · cases h
    · simp only [Except.ok.injEq, Prod.mk.injEq] at h
      obtain ⟨rfl, rfl, rfl⟩ := h
      exact hl.reached i (by simp [at_])
  | .assign i x e, b, hsc, hlit, st, st', l, sp, ce, h, hE, hun, hl, hs => by
    simp only [execV] at h
    split at h
    · cases h
    · simp only [Except.ok.injEq, Prod.mk.injEq] at h
      obtain ⟨rfl, rfl, rfl⟩ := h
      obtain ⟨a1, a2⟩ := Covers.append.1 hl
      exact ⟨a1.reached i (by simp [at_]), seen_agree hp hw h1 hE hlit a2 hs⟩
  | .sassign i x e, b, hsc, hlit, st, st', l, sp, ce, h, hE, hun, hl, hs => by
    simp only [execV] at h
    split at h
    · cases h
    · simp only [Except.ok.injEq, Prod.mk.injEq] at h
      obtain ⟨rfl, rfl, rfl⟩ := h
      obtain ⟨a1, a2⟩ := Covers.append.1 hl
      exact ⟨a1.reached i (by simp [at_]), seen_agree hp hw h1 hE hlit a2 hs⟩
  | .cassign i x e, b, hsc, hlit, st, st', l, sp, ce, h, hE, hun, hl, hs => by
    simp only [execV] at h
    split at h
    · cases h
    · simp only [Except.ok.injEq, Prod.mk.injEq] at h
      obtain ⟨rfl, rfl, rfl⟩ := h
      obtain ⟨a1, a2⟩ := Covers.append.1 hl
      exact ⟨a1.reached i (by simp [at_]), seen_agree hp hw h1 hE hlit a2 hs⟩
  | .check i x e, b, hsc, hlit, st, st', l, sp, ce, h, hE, hun, hl, hs => by
    simp only [execV] at h
    split at h
    · cases h
    · simp only [Except.ok.injEq, Prod.mk.injEq] at h
      obtain ⟨rfl, rfl, rfl⟩ := h
      obtain ⟨a12, a3⟩ := Covers.append.1 hl
      obtain ⟨a1, a2⟩ := Covers.append.1 a12
      obtain ⟨b1, b2⟩ := Covers.append.1 hs
      exact ⟨a1.reached i (by simp [at_]), seen_agree hp hw h1 hE hlit.1 a2 b1,
        seen_agree hp hw h1 hE hlit.2 a3 b2⟩
  | .ifThen i c t, b, hsc, hlit, st, st', l, sp, ce, h, hE, hun, hl, hs => by
    simp only [execV] at h
    split at h
    · cases h
    · rename_i st1 l1 s1 cr hx
      simp only [Except.ok.injEq, Prod.mk.injEq] at h
      obtain ⟨rfl, rfl, rfl⟩ := h
      obtain ⟨a1, a2⟩ := Covers.append.1 hl
      obtain ⟨g1, g2, _⟩ := conditionalV_agree hp hw h1 hlit.1 (fun st => execV_proj fuel p t st)
        (exec_good fuel p t.erase hsc) (agreeT := AgreeS A p w cfuel t) (agreeE := fun _ => True)
        (fun st st' l s ce => execV_agree fuel cfuel t false hsc hlit.2 st st' l s ce)
        (by intro f hf; cases hf) hx hE hun a2 hs
      exact ⟨a1.reached i (by simp [at_]), g1, g2⟩
  | .ifElse i c t e, b, hsc, hlit, st, st', l, sp, ce, h, hE, hun, hl, hs => by
    simp only [execV] at h
    split at h
    · cases h
    · rename_i st1 l1 s1 cr hx
      simp only [Except.ok.injEq, Prod.mk.injEq] at h
      obtain ⟨rfl, rfl, rfl⟩ := h
      obtain ⟨a1, a2⟩ := Covers.append.1 hl
      obtain ⟨g1, g2, g3⟩ := conditionalV_agree hp hw h1 hlit.1 (fun st => execV_proj fuel p t st)
        (exec_good fuel p t.erase hsc.1) (agreeT := AgreeS A p w cfuel t) (agreeE := AgreeS A p w cfuel e)
        (fun st st' l s ce => execV_agree fuel cfuel t false hsc.1 hlit.2.1 st st' l s ce)
        (by
          intro f hf
          injection hf with hf
          subst hf
          exact ⟨fun st st' l s hx => (exec_facts (execV_exec hx)).unstable_false,
            fun st st' l s ce => execV_agree fuel cfuel e false hsc.2 hlit.2.2 st st' l s ce⟩) hx hE hun a2 hs
      exact ⟨a1.reached i (by simp [at_]), g1, g2, g3 (by simp)⟩
  | .while i c t, b, hsc, hlit, st, st', l, sp, ce, h, hE, hun, hl, hs => by
    simp only [execV] at h
    split at h
    · cases h
    · rename_i st1 l1 s1 hx
      simp only [Except.ok.injEq, Prod.mk.injEq] at h
      obtain ⟨rfl, rfl, rfl⟩ := h
      obtain ⟨a1, a2⟩ := Covers.append.1 hl
      exact ⟨a1.reached i (by simp [at_]), whileLoopV_agree hp hw h1 hlit.1
        (fun st => execV_proj fuel p t st) (exec_good fuel p t.erase hsc)
        (exec_sim hp hw h1 fuel cfuel t.erase false hsc hlit.2)
        (fun st st' l s ce => execV_agree fuel cfuel t false hsc hlit.2 st st' l s ce)
        fuel _ _ _ _ ce hx hE hun a2 hs cfuel⟩
  | .block i t, b, hsc, hlit, st, st', l, sp, ce, h, hE, hun, hl, hs => by
    simp only [execV] at h
    split at h
    · cases h
    · rename_i st1 l1 s1 hx
      simp only [Except.ok.injEq, Prod.mk.injEq] at h
      obtain ⟨rfl, rfl, rfl⟩ := h
      obtain ⟨a1, a2⟩ := Covers.append.1 hl
      exact ⟨a1.reached i (by simp [at_]),
        execV_agree fuel cfuel t true hsc hlit _ _ _ _ _ hx (.cons .nil hE) hun a2 hs⟩
  | .init i t, b, hsc, hlit, st, st', l, sp, ce, h, hE, hun, hl, hs => by
    simp only [execV] at h
    split at h
    · cases h
    · rename_i st1 l1 s1 hx
      simp only [Except.ok.injEq, Prod.mk.injEq] at h
      obtain ⟨rfl, rfl, rfl⟩ := h
      obtain ⟨a1, a2⟩ := Covers.append.1 hl
      exact ⟨a1.reached i (by simp [at_]),
        execV_agree fuel cfuel t b hsc hlit _ _ _ _ _ hx hE hun a2 hs⟩

end

end Verif.Filters
