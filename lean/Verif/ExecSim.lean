import Verif.ExecUnknown

/-!
Simulation: a successful symbolic execution describes every concrete execution, provided that the
loops with unknown conditions were stable after two passes.
-/

set_option linter.unusedSectionVars false
set_option linter.unusedSimpArgs false

namespace Verif.Exec

open Verif.ModArith Verif.Algebra

variable {p : Nat} {w : Nat → Int}

/-- The field values of the signals. -/
def rho (p : Nat) (w : Nat → Int) : Nat → ZMod p := fun s => (w s : ZMod p)

/-- All conditions of the list have the outcome given by `β`. -/
def act (β : Nat → Bool) (cs : List (Nat × Bool)) : Bool := cs.all fun x => β x.1 == x.2

theorem act_iff {β : Nat → Bool} {cs : List (Nat × Bool)} : act β cs = true ↔ ∀ x ∈ cs, β x.1 = x.2 := by
  simp [act]

theorem act_congr {β β' : Nat → Bool} {n : Nat} {cs : List (Nat × Bool)} (hb : Below n cs)
    (h : ∀ i < n, β i = β' i) : act β cs = act β' cs := by
  rw [Bool.eq_iff_iff, act_iff, act_iff]
  exact ⟨fun g x hx => (h _ (hb x hx)).symm.trans (g x hx), fun g x hx => (h _ (hb x hx)).trans (g x hx)⟩

/-- What a completed execution without return value says about a concrete run. -/
structure Outcome (p : Nat) (w : Nat → Int) (st st' : St) (c' : CEnv) (tr : Trace) (rc : Option Int) :
    Prop where
  ret : rc = none
  env : RelE p (rho p w) st'.env c'
  cons : ∃ new, st'.cons = st.cons ++ new ∧
    ((∀ k ∈ new, k.Holds (rho p w)) ↔ ∀ q ∈ tr.checks, q.1 = q.2)
  log : st'.loopInUnknown = false → Below st.counter st.conds → ∀ β0, act β0 st.conds = true →
    ∃ β, (∀ i < st.counter, β i = β0 i) ∧ act β st'.conds = true ∧
      ∃ new, st'.log = st.log ++ new ∧ tr.sigs = (new.filter fun e => act β e.2).map (·.1)

theorem Outcome.refl {st : St} {c : CEnv} (h : RelE p (rho p w) st.env c) :
    Outcome p w st st c .nil none where
  ret := rfl
  env := h
  cons := ⟨[], by simp, by simp [Trace.nil]⟩
  log _ _ β0 h := ⟨β0, fun _ _ => rfl, h, [], by simp, by simp [Trace.nil]⟩

theorem Outcome.trans {st st1 st2 : St} {c1 c2 : CEnv} {t1 t2 : Trace} {rc : Option Int}
    (f1 : Facts st st1) (f2 : Facts st1 st2)
    (h1 : Outcome p w st st1 c1 t1 none) (h2 : Outcome p w st1 st2 c2 t2 rc) :
    Outcome p w st st2 c2 (t1.append t2) rc where
  ret := h2.ret
  env := h2.env
  cons := by
    obtain ⟨n1, g1, g2⟩ := h1.cons
    obtain ⟨n2, k1, k2⟩ := h2.cons
    refine ⟨n1 ++ n2, by rw [k1, g1, List.append_assoc], ?_⟩
    simp only [Trace.append, List.mem_append, or_imp, forall_and]
    rw [g2, k2]
  log hl hb β0 ha := by
    obtain ⟨β1, a1, a2, n1, a3, a4⟩ := h1.log (f2.loop_false hl) hb β0 ha
    obtain ⟨β2, b1, b2, n2, b3, b4⟩ := h2.log hl (f1.below hb) β1 a2
    refine ⟨β2, fun i hi => (b1 i (lt_of_lt_of_le hi f1.counter)).trans (a1 i hi), b2, n1 ++ n2,
      by rw [b3, a3, List.append_assoc], ?_⟩
    rw [List.filter_append, List.map_append]
    simp only [Trace.append]
    rw [a4, b4]
    congr 2
    obtain ⟨n1', c1, c2⟩ := f1.log
    rw [a3] at c1
    have : n1 = n1' := List.append_cancel_left c1
    subst this
    apply List.filter_congr
    intro e he
    exact act_congr (c2 hb e he) fun i hi => (b1 i hi).symm

/-- The symbolic execution `t` describes the concrete execution `b`. -/
def Simulates (p : Nat) (w : Nat → Int) (t : St → Ex (St × Option V))
    (b : CEnv → Option (CEnv × Trace × Option Int)) : Prop :=
  ∀ st st' r c c' tr rc, t st = .ok (st', r) → b c = some (c', tr, rc) →
    RelE p (rho p w) st.env c → st'.unstable = false →
    (∀ v, r = some v → v ≠ .nonQuadratic → ∃ u, rc = some u ∧ RelV p (rho p w) v u) ∧
    (r = none → Outcome p w st st' c' tr rc)

/-- General facts about executions of branches. -/
structure Good (t : St → Ex (St × Option V)) : Prop where
  facts : ∀ st st' r, t st = .ok (st', r) → Facts st st'
  unknown : ∀ st st' r, t st = .ok (st', r) → st'.unknown = st.unknown
  forget : AllForget t
  balanced : AllBalanced t

theorem exec_good (fuel : Nat) (field : Int) (s : Stmt) (hs : s.Scoped false) :
    Good (exec fuel field s) where
  facts _ _ _ h := exec_facts h
  unknown := exec_unknown fuel field s
  forget := exec_allForget fuel field s hs
  balanced := exec_balanced fuel field s

theorem dropLast_enter (st : St) : (enter st).conds.dropLast = st.conds := by simp [enter]

theorem filter_inactive {β : Nat → Bool} {k : Nat} {b : Bool} (hβ : β k = !b)
    {new : List (Nat × List (Nat × Bool))} (h : ∀ e ∈ new, (k, b) ∈ e.2) :
    (new.filter fun e => act β e.2) = [] := by
  rw [List.filter_eq_nil_iff]
  intro e he ha
  have := act_iff.1 ha _ (h e he)
  simp only at this
  rw [hβ] at this
  cases b <;> cases this

theorem mem_of_prefix {α : Type} {a : α} {x y : List α} (h : x ++ [a] <+: y) : a ∈ y :=
  h.subset (by simp)

/-- Assignments made in a pass with unknown condition carry the condition of that pass. -/
theorem pass_log {field : Int} {c : Expr} {t : St → Ex (St × Option V)} (ht : Good t)
    {st st' : St} {r : Option V}
    (h : conditional field c t none st = .ok (st', r, none)) (hl : st'.loopInUnknown = false) :
    st'.conds = st.conds ∧ st.counter < st'.counter ∧
      ∃ new, st'.log = st.log ++ new ∧ ∀ e ∈ new, (st.counter, true) ∈ e.2 := by
  obtain ⟨vc, _, hc⟩ := conditional_cases h
  clear h
  rcases hc with ⟨_, h, _⟩ | ⟨_, h, _⟩ | ⟨f, _, h, _⟩ | ⟨_, _, _, st1, h, rfl⟩ |
    ⟨f, st1, r1, last, st2, r2, _, _, hf, h1, hlast, h2, rfl, rfl⟩
  · cases h
  · cases h
  · cases h
  · obtain ⟨g1, n, g2, g3⟩ := ht.balanced _ _ _ rfl h hl
    refine ⟨?_, (ht.facts _ _ _ h).counter, n, g2, fun e he => mem_of_prefix (g3 e he)⟩
    show st1.conds.dropLast = st.conds
    rw [g1, dropLast_enter]
  · cases hf

/-- Concrete execution of a conditional. -/
def cCond (field : Int) (w : Nat → Int) (c : Expr) (tb eb : CEnv → Option (CEnv × Trace × Option Int)) :
    CEnv → Option (CEnv × Trace × Option Int) := fun env =>
  match cEval field w env c with
  | none => none
  | some v => if ModArith.asBool v field then tb env else eb env

def cSkip : CEnv → Option (CEnv × Trace × Option Int) := fun env => some (env, .nil, none)

theorem getBool_rel {v : V} {u : Int} (h : RelV p (rho p w) v u) {b : Bool}
    (hb : getBool v p = some b) : asBool u p = b := by
  obtain ⟨n, rfl⟩ := getBool_some hb
  rw [← h.number n rfl]
  simpa [getBool] using hb

theorem or_none {r1 r2 : Option V} (h : r1.or r2 = none) : r1 = none ∧ r2 = none := by
  cases r1 <;> cases r2 <;> simp at h ⊢

section
variable (hp : 1 < p) (hw : ∀ s, 0 ≤ w s ∧ w s < p) (h1 : w 0 = 1)
include hp hw h1

/-- Simulation of conditionals. -/
theorem conditional_sim {c : Expr} (hlit : c.Lits p) {t : St → Ex (St × Option V)}
    {e : Option (St → Ex (St × Option V))} {tb eb : CEnv → Option (CEnv × Trace × Option Int)}
    (ht : Good t) (hts : Simulates p w t tb)
    (he : ∀ f, e = some f → Good f ∧ Simulates p w f eb) (hen : e = none → eb = cSkip)
    {st st' : St} {r : Option V} {cr : Option Bool} {ce ce' : CEnv} {tr : Trace} {rc : Option Int}
    (h : conditional p c t e st = .ok (st', r, cr)) (hc : cCond p w c tb eb ce = some (ce', tr, rc))
    (hE : RelE p (rho p w) st.env ce) (hun : st'.unstable = false) :
    (∀ v, r = some v → v ≠ .nonQuadratic → ∃ u, rc = some u ∧ RelV p (rho p w) v u) ∧
    (r = none → Outcome p w st st' ce' tr rc) := by
  obtain ⟨vc, hvc, hcases⟩ := conditional_cases h
  unfold cCond at hc
  cases hcv : cEval p w ce c with
  | none => rw [hcv] at hc; cases hc
  | some u =>
    rw [hcv] at hc
    simp only at hc
    have hrel : RelV p (rho p w) vc u := eval_rel hp hw h1 hE c hlit hvc hcv
    rcases hcases with ⟨hb, _, hx⟩ | ⟨hb, _, hn, rfl, rfl⟩ | ⟨f, hb, _, hf, hx⟩ |
      ⟨hb, rfl, hn, st1, hx, rfl⟩ |
      ⟨f, st1, r1, last, st2, r2, hb, rfl, hf, hx, hlast, hy, rfl, rfl⟩
    · rw [getBool_rel hrel hb] at hc
      exact hts _ _ _ _ _ _ _ hx hc hE hun
    · rw [getBool_rel hrel hb] at hc
      rw [hen hn] at hc
      simp only [Bool.false_eq_true, if_false, cSkip, Option.some.injEq, Prod.mk.injEq] at hc
      obtain ⟨rfl, rfl, rfl⟩ := hc
      exact ⟨(by intro v hv; cases hv), fun _ => Outcome.refl hE⟩
    · rw [getBool_rel hrel hb] at hc
      exact (he f hf).2 _ _ _ _ _ _ _ hx (by simpa using hc) hE hun
    · -- unknown condition, no second branch
      have hq := (conditional_forgets_unknown ht.forget
        (fun f hf => by rw [hn] at hf; cases hf) h).2
      refine ⟨fun v hv hv' => absurd (hq v hv) hv', fun hr => ?_⟩
      subst hr
      obtain ⟨g1, _, _⟩ := ht.forget _ _ _ rfl hx
      have hfacts := ht.facts _ _ _ hx
      by_cases hub : asBool u p = true
      · rw [if_pos hub] at hc
        have ho := (hts _ _ _ _ _ _ _ hx hc hE hun).2 rfl
        refine ⟨ho.ret, ho.env, ?_, ?_⟩
        · obtain ⟨n, k1, k2⟩ := ho.cons
          have hn0 : n = [] := by
            have h3 : st1.cons = st.cons := g1.2
            have h4 : st1.cons = st.cons ++ n := k1
            rw [h3] at h4
            exact List.append_cancel_left (h4.symm.trans (List.append_nil _).symm)
          subst hn0
          exact ⟨[], k1, k2⟩
        · intro hl hbel β0 ha
          have hl1 : st1.loopInUnknown = false := hl
          obtain ⟨b1, _⟩ := ht.balanced _ _ _ rfl hx hl1
          obtain ⟨β, a1, a2, n, a3, a4⟩ := ho.log hl1 (below_push hbel true)
            (Function.update β0 st.counter true) (by
              rw [act_iff]
              intro x hx
              rcases List.mem_append.1 hx with hx | hx
              · have := hbel x hx
                rw [Function.update_of_ne (by omega)]
                exact act_iff.1 ha x hx
              · rw [List.mem_singleton.1 hx]; simp)
          refine ⟨β, fun i hi => ?_, ?_, n, a3, a4⟩
          · rw [a1 i (by show i < st.counter + 1; omega), Function.update_of_ne (by omega)]
          · show act β st1.conds.dropLast = true
            rw [act_iff] at a2 ⊢
            exact fun x hx => a2 x (List.dropLast_subset _ hx)
      · rw [if_neg hub] at hc
        rw [hen hn] at hc
        simp only [cSkip, Option.some.injEq, Prod.mk.injEq] at hc
        obtain ⟨rfl, rfl, rfl⟩ := hc
        refine ⟨rfl, rel_smash hE g1.1, ⟨[], by simp [leave, g1.2, enter], by simp [Trace.nil]⟩, ?_⟩
        intro hl hbel β0 ha
        have hl1 : st1.loopInUnknown = false := hl
        obtain ⟨b1, n, b2, b3⟩ := ht.balanced _ _ _ rfl hx hl1
        refine ⟨Function.update β0 st.counter false, fun i hi => Function.update_of_ne (by omega) _ _,
          ?_, n, b2, ?_⟩
        · show act _ st1.conds.dropLast = true
          rw [b1, dropLast_enter, ← ha]
          exact act_congr hbel fun i hi => Function.update_of_ne (by omega) _ _
        · rw [filter_inactive (k := st.counter) (b := true) (by simp) (fun e he => mem_of_prefix (b3 e he))]
          rfl
    · -- unknown condition, two branches
      obtain ⟨hfg, hfs⟩ := he f hf
      have hq := (conditional_forgets_unknown ht.forget
        (fun f' hf' => (he f' hf').1.forget) h).2
      refine ⟨fun v hv hv' => absurd (hq v hv) hv', fun hr => ?_⟩
      obtain ⟨rfl, rfl⟩ := or_none hr
      obtain ⟨g1, _, gu⟩ := ht.forget _ _ _ rfl hx
      obtain ⟨k1, _, _⟩ := hfg.forget _ _ _ (by exact gu) hy
      have hf1 := ht.facts _ _ _ hx
      have hf2 := hfg.facts _ _ _ hy
      have hun2 : st2.unstable = false := hun
      have hun1 : st1.unstable = false := hf2.unstable_false hun2
      have hcons : st2.cons = st.cons := by
        have := k1.2.trans g1.2
        exact this
      by_cases hub : asBool u p = true
      · rw [if_pos hub] at hc
        have ho := (hts _ _ _ _ _ _ _ hx hc hE hun1).2 rfl
        refine ⟨ho.ret, rel_smash ho.env k1.1, ⟨[], by simp [leave, hcons], ?_⟩, ?_⟩
        · obtain ⟨n, c1, c2⟩ := ho.cons
          have hn0 : n = [] := by
            have h3 : st1.cons = st.cons := g1.2
            have h4 : st1.cons = st.cons ++ n := c1
            rw [h3] at h4
            exact List.append_cancel_left (h4.symm.trans (List.append_nil _).symm)
          subst hn0
          exact c2
        · intro hl hbel β0 ha
          have hl2 : st2.loopInUnknown = false := hl
          have hl1 : st1.loopInUnknown = false := hf2.loop_false hl2
          obtain ⟨b1, _⟩ := ht.balanced _ _ _ rfl hx hl1
          obtain ⟨d1, n2, d2, d3⟩ := hfg.balanced _ _ _ (by exact gu) hy hl2
          obtain ⟨β, a1, a2, n, a3, a4⟩ := ho.log hl1 (below_push hbel true)
            (Function.update β0 st.counter true) (by
              rw [act_iff]
              intro x hx
              rcases List.mem_append.1 hx with hx | hx
              · have := hbel x hx
                rw [Function.update_of_ne (by omega)]
                exact act_iff.1 ha x hx
              · rw [List.mem_singleton.1 hx]; simp)
          have hk : last.1 = st.counter := by
            rw [b1] at hlast
            simp only [enter, List.getLast?_append, List.getLast?_singleton, Option.some_or,
              Option.some.injEq] at hlast
            rw [← hlast]
          have hagree : ∀ i < st.counter, β i = β0 i := fun i hi => by
            rw [a1 i (by show i < st.counter + 1; omega), Function.update_of_ne (by omega)]
          refine ⟨β, hagree, ?_, n ++ n2, ?_, ?_⟩
          · show act β st2.conds.dropLast = true
            rw [d1]
            simp only [flip, List.dropLast_concat, b1, dropLast_enter]
            rw [act_congr hbel hagree]; exact ha
          · show st2.log = _
            rw [d2]
            show st1.log ++ n2 = _
            rw [a3, List.append_assoc]; rfl
          · rw [List.filter_append, filter_inactive (k := st.counter) (b := false) (new := n2) ?_ ?_,
              List.append_nil]
            · exact a4
            · rw [a1 st.counter (by show st.counter < st.counter + 1; omega)]; simp
            · intro e he
              have := mem_of_prefix (d3 e he)
              rw [hk] at this; exact this
      · rw [if_neg hub] at hc
        have hE1 : RelE p (rho p w) (flip last st1).env ce := rel_smash hE g1.1
        have ho := (hfs _ _ _ _ _ _ _ hy hc hE1 hun2).2 rfl
        refine ⟨ho.ret, ho.env, ⟨[], by simp [leave, hcons], ?_⟩, ?_⟩
        · obtain ⟨n, c1, c2⟩ := ho.cons
          have hn0 : n = [] := by
            have h3 : st2.cons = st1.cons := k1.2
            have h4 : st2.cons = st1.cons ++ n := c1
            rw [h3] at h4
            exact List.append_cancel_left (h4.symm.trans (List.append_nil _).symm)
          subst hn0
          exact c2
        · intro hl hbel β0 ha
          have hl2 : st2.loopInUnknown = false := hl
          have hl1 : st1.loopInUnknown = false := hf2.loop_false hl2
          obtain ⟨b1, n1, b2, b3⟩ := ht.balanced _ _ _ rfl hx hl1
          have hk : last.1 = st.counter := by
            rw [b1] at hlast
            simp only [enter, List.getLast?_append, List.getLast?_singleton, Option.some_or,
              Option.some.injEq] at hlast
            rw [← hlast]
          have hcf : (flip last st1).conds = st.conds ++ [(st.counter, false)] := by
            simp only [flip, b1, dropLast_enter, hk]
          have hcnt : st.counter + 1 ≤ (flip last st1).counter := hf1.counter
          obtain ⟨β, a1, a2, n, a3, a4⟩ := ho.log hl2 (by
              rw [hcf]; exact (below_push hbel false).mono hcnt)
            (Function.update β0 st.counter false) (by
              rw [hcf, act_iff]
              intro x hx
              rcases List.mem_append.1 hx with hx | hx
              · have := hbel x hx
                rw [Function.update_of_ne (by omega)]
                exact act_iff.1 ha x hx
              · rw [List.mem_singleton.1 hx]; simp)
          have hagree : ∀ i < st.counter, β i = β0 i := fun i hi => by
            rw [a1 i (by omega), Function.update_of_ne (by omega)]
          refine ⟨β, hagree, ?_, n1 ++ n, ?_, ?_⟩
          · show act β st2.conds.dropLast = true
            rw [act_iff] at a2 ⊢
            exact fun x hx => a2 x (List.dropLast_subset _ hx)
          · show st2.log = _
            rw [a3]
            show st1.log ++ n = _
            rw [b2, List.append_assoc]; rfl
          · rw [List.filter_append, filter_inactive (k := st.counter) (b := true) (new := n1) ?_ ?_,
              List.nil_append]
            · exact a4
            · rw [a1 st.counter (by omega)]; simp
            · exact fun e he => mem_of_prefix (b3 e he)

/-- Concrete iterations of a loop that is stable for the executor. -/
theorem stable_sim {c : Expr} (hlit : c.Lits p) {t : St → Ex (St × Option V)}
    {tb : CEnv → Option (CEnv × Trace × Option Int)} (ht : Good t) (hts : Simulates p w t tb)
    {st st3 : St} {cr : Option Bool}
    (h3 : conditional p c t none st = .ok (st3, none, none)) (hun : st3.unstable = false)
    (henv : st3.env = st.env) (hlog : st3.log = st.log) :
    ∀ (fuel : Nat) (ce ce' : CEnv) (tr : Trace) (rc : Option Int), RelE p (rho p w) st.env ce →
      cLoop p w c tb fuel ce = some (ce', tr, rc) →
      rc = none ∧ RelE p (rho p w) st.env ce' ∧ (∀ q ∈ tr.checks, q.1 = q.2) ∧
      (st3.loopInUnknown = false → Below st.counter st.conds → ∀ β0, act β0 st.conds = true →
        tr.sigs = [])
  | 0, ce, ce', tr, rc, hE, hc => by simp [cLoop] at hc
  | fuel + 1, ce, ce', tr, rc, hE, hc => by
    rw [cLoop] at hc
    cases hcv : cEval p w ce c with
    | none => rw [hcv] at hc; cases hc
    | some u =>
      rw [hcv] at hc
      simp only at hc
      by_cases hub : asBool u p = true
      · rw [if_pos hub] at hc
        have key : ∀ ce1 t1 r1, tb ce = some (ce1, t1, r1) → Outcome p w st st3 ce1 t1 r1 := by
          intro ce1 t1 r1 hb
          have hcc : cCond p w c tb cSkip ce = some (ce1, t1, r1) := by
            unfold cCond
            rw [hcv]
            simp only [hub, if_true, hb]
          exact (conditional_sim hp hw h1 hlit ht hts (by intro f hf; cases hf) (fun _ => rfl) h3 hcc hE
            hun).2 rfl
        have g1 := (conditional_forgets_unknown ht.forget (by intro f hf; cases hf) h3).1
        have hchk : ∀ ce1 t1 r1, tb ce = some (ce1, t1, r1) → ∀ q ∈ t1.checks, q.1 = q.2 := by
          intro ce1 t1 r1 hb
          obtain ⟨n, c1, c2⟩ := (key _ _ _ hb).cons
          rw [g1.2] at c1
          have : n = [] := List.append_cancel_left (c1.symm.trans (List.append_nil _).symm)
          subst this
          exact c2.1 (by simp)
        cases hb : tb ce with
        | none => rw [hb] at hc; cases hc
        | some x =>
          obtain ⟨ce1, t1, r1⟩ := x
          have ho := key _ _ _ hb
          have hr := ho.ret
          subst hr
          rw [hb] at hc
          simp only at hc
          cases hrest : cLoop p w c tb fuel ce1 with
          | none => rw [hrest] at hc; cases hc
          | some y =>
            obtain ⟨ce2, t2, r2⟩ := y
            rw [hrest] at hc
            simp only [Option.map_some, Option.some.injEq, Prod.mk.injEq] at hc
            obtain ⟨rfl, rfl, rfl⟩ := hc
            have hE1 := ho.env
            rw [henv] at hE1
            obtain ⟨i1, i2, i3, i4⟩ := stable_sim hlit ht hts (cr := cr) h3 hun henv hlog fuel _ _ _ _ hE1 hrest
            refine ⟨i1, i2, ?_, ?_⟩
            · intro q hq
              rcases List.mem_append.1 hq with hq | hq
              · exact hchk _ _ _ hb q hq
              · exact i3 q hq
            · intro hl hbel β0 ha
              obtain ⟨β, _, _, n, a3, a4⟩ := ho.log hl hbel β0 ha
              rw [hlog] at a3
              have : n = [] := List.append_cancel_left (a3.symm.trans (List.append_nil _).symm)
              subst this
              simp only [Trace.append]
              rw [a4, i4 hl hbel β0 ha]
              rfl
      · rw [if_neg hub] at hc
        simp only [Option.some.injEq, Prod.mk.injEq] at hc
        obtain ⟨rfl, rfl, rfl⟩ := hc
        exact ⟨rfl, hE, by simp [Trace.nil], fun _ _ _ _ => rfl⟩

/-- Simulation of loops. -/
theorem whileLoop_sim {c : Expr} (hlit : c.Lits p) {t : St → Ex (St × Option V)}
    {tb : CEnv → Option (CEnv × Trace × Option Int)} (ht : Good t) (hts : Simulates p w t tb) :
    ∀ (n : Nat) (st st' : St) (r : Option V) (fuel : Nat) (ce ce' : CEnv) (tr : Trace) (rc : Option Int),
      whileLoop (conditional p c t none) n st = .ok (st', r) →
      cLoop p w c tb fuel ce = some (ce', tr, rc) →
      RelE p (rho p w) st.env ce → st'.unstable = false →
      (∀ v, r = some v → v ≠ .nonQuadratic → ∃ u, rc = some u ∧ RelV p (rho p w) v u) ∧
      (r = none → Outcome p w st st' ce' tr rc)
  | 0, st, st', r, fuel, ce, ce', tr, rc, h, hc, hE, hun => by simp [whileLoop] at h
  | n + 1, st, st', r, fuel, ce, ce', tr, rc, h, hc, hE, hun => by
    have hstepf : ∀ st st' r cr, conditional p c t none st = .ok (st', r, cr) → Facts st st' :=
      fun _ _ _ _ h => kept_facts.conditional ht.facts (by intro f hf; cases hf) h
    rw [whileLoop] at h
    cases fuel with
    | zero => simp [cLoop] at hc
    | succ fuel =>
    rw [cLoop] at hc
    cases hcv : cEval p w ce c with
    | none => rw [hcv] at hc; cases hc
    | some u =>
      rw [hcv] at hc
      simp only at hc
      have known : ∀ st1 r1 b, conditional p c t none st = .ok (st1, r1, some b) → asBool u p = b := by
        intro st1 r1 b hx
        obtain ⟨vc, hvc, hcases⟩ := conditional_cases hx
        have hrel : RelV p (rho p w) vc u := eval_rel hp hw h1 hE c hlit hvc hcv
        rcases hcases with ⟨hb, hcr, _⟩ | ⟨hb, hcr, _⟩ | ⟨f, hb, hcr, _⟩ | ⟨_, hcr, _⟩ |
          ⟨f, s1, r1, last, s2, r2, _, hcr, _⟩ <;> first | (injection hcr with hcr; subst hcr; exact getBool_rel hrel hb) | cases hcr
      have step_sim : ∀ st1 r1 cr ce1 t1 r2, conditional p c t none st = .ok (st1, r1, cr) →
          asBool u p = true → tb ce = some (ce1, t1, r2) → st1.unstable = false →
          (∀ v, r1 = some v → v ≠ .nonQuadratic → ∃ u, r2 = some u ∧ RelV p (rho p w) v u) ∧
          (r1 = none → Outcome p w st st1 ce1 t1 r2) := by
        intro st1 r1 cr ce1 t1 r2 hx hub hb hun1
        have hcc : cCond p w c tb cSkip ce = some (ce1, t1, r2) := by
          unfold cCond
          rw [hcv]
          simp only [hub, if_true, hb]
        exact conditional_sim hp hw h1 hlit ht hts (by intro f hf; cases hf) (fun _ => rfl) hx hcc hE hun1
      split at h
      · cases h
      · -- return in the first pass
        rename_i st1 v cr hx
        simp only [Except.ok.injEq, Prod.mk.injEq] at h
        obtain ⟨rfl, rfl⟩ := h
        refine ⟨?_, by intro hr; cases hr⟩
        intro v' hv' hne
        injection hv' with hv'
        subst hv'
        cases cr with
        | none =>
          exact absurd ((conditional_forgets_unknown ht.forget (by intro f hf; cases hf) hx).2 v rfl) hne
        | some b =>
          cases b with
          | false =>
            obtain ⟨vc, hvc, hcases⟩ := conditional_cases hx
            rcases hcases with ⟨_, hcr, _⟩ | ⟨_, hcr, _, _, hr⟩ | ⟨f, _, _, hf, _⟩ | ⟨_, hcr, _⟩ |
              ⟨f, s1, r1, last, s2, r2, _, hcr, _⟩
            · cases hcr
            · cases hr
            · cases hf
            · cases hcr
            · cases hcr
          | true =>
            have hub := known _ _ _ hx
            rw [if_pos hub] at hc
            cases hb : tb ce with
            | none => rw [hb] at hc; cases hc
            | some x =>
              obtain ⟨ce1, t1, r2⟩ := x
              obtain ⟨u', hu', hrel⟩ := (step_sim _ _ _ _ _ _ hx hub hb hun).1 v rfl hne
              subst hu'
              rw [hb] at hc
              simp only [Option.some.injEq, Prod.mk.injEq] at hc
              obtain ⟨_, _, rfl⟩ := hc
              exact ⟨u', rfl, hrel⟩
      · -- unknown condition
        rename_i st1 hx
        obtain ⟨g1, _⟩ := conditional_forgets_unknown ht.forget (by intro f hf; cases hf) hx
        have cond_none : ∀ sta str rr cr, SmE st.env sta.env →
            conditional p c t none sta = .ok (str, rr, cr) → cr = none := by
          intro sta str rr cr hs hy
          obtain ⟨vc, hvc, hcases⟩ := conditional_cases hx
          obtain ⟨vd, hvd, hcases'⟩ := conditional_cases hy
          have hb0 : getBool vc p = none := by
            rcases hcases with ⟨_, hcr, _⟩ | ⟨_, hcr, _⟩ | ⟨f, _, hcr, _⟩ | ⟨hb, _⟩ |
              ⟨f, s1, r1, last, s2, r2, hb, _⟩ <;> first | exact hb | cases hcr
          have hb1 := getBool_mono hs c hvc hvd hb0
          rcases hcases' with ⟨hb, _⟩ | ⟨hb, _⟩ | ⟨f, hb, _⟩ | ⟨_, hcr, _⟩ |
              ⟨f, s1, r1, last, s2, r2, _, hcr, _⟩ <;>
            first | exact hcr | (rw [hb1] at hb; cases hb)
        split at h
        · cases h
        · rename_i st2 v cr hy
          simp only [Except.ok.injEq, Prod.mk.injEq] at h
          obtain ⟨rfl, rfl⟩ := h
          have := cond_none _ _ _ _ g1.1 hy
          subst this
          have hq := (conditional_forgets_unknown ht.forget (by intro f hf; cases hf) hy).2
          exact ⟨fun v hv hne => absurd (hq v hv) hne, by intro hr; cases hr⟩
        · rename_i st2 cr hy
          simp only [Except.ok.injEq, Prod.mk.injEq] at h
          obtain ⟨rfl, rfl⟩ := h
          have := cond_none _ _ _ _ g1.1 hy
          subst this
          obtain ⟨g2, _⟩ := conditional_forgets_unknown ht.forget (by intro f hf; cases hf) hy
          have hsm : SmE st.env st2.env := SmE.trans g1.1 g2.1
          refine ⟨(by intro v hv; cases hv), fun _ => ?_⟩
          obtain ⟨m1, m2, m3, m4, m5, m6, m7⟩ := markUnstable_fields (conditional p c t none) st2
          have hthird : ∃ st3, conditional p c t none st2 = .ok (st3, none, none) ∧
              st3.unstable = false ∧ st3.env = st2.env ∧ st3.log = st2.log ∧
              ((markUnstable (conditional p c t none) st2).loopInUnknown = false →
                st3.loopInUnknown = false ∧ st2.loopInUnknown = false) := by
            unfold markUnstable at hun ⊢
            split at hun
            · rename_i st3 cr3 hz
              have := cond_none _ _ _ _ hsm hz
              subst this
              simp only [Bool.or_eq_false_iff, decide_eq_false_iff_not, ne_eq, not_not] at hun
              refine ⟨st3, hz, hun.1.1.2, hun.1.2, hun.2, ?_⟩
              intro hl
              simp only [Bool.or_eq_false_iff] at hl
              exact ⟨hl.2, hl.1⟩
            · cases hun
          obtain ⟨st3, hz, hun3, henv3, hlog3, hl3⟩ := hthird
          have hcl : cLoop p w c tb (fuel + 1) ce = some (ce', tr, rc) := by
            rw [cLoop, hcv]; exact hc
          obtain ⟨s1, s2, s3, s4⟩ := stable_sim hp hw h1 hlit ht hts (cr := none) hz hun3 henv3 hlog3
            (fuel + 1) _ _ _ _ (rel_smash hE hsm) hcl
          refine ⟨s1, by rw [m1]; exact s2, ⟨[], ?_, ?_⟩, ?_⟩
          · rw [m6, g2.2, g1.2]; simp
          · constructor
            · intro _; exact s3
            · intro _ k hk; cases hk
          · intro hl hbel β0 ha
            obtain ⟨hl3', hl2⟩ := hl3 hl
            have hl1 : st1.loopInUnknown = false := (hstepf _ _ _ _ hy).loop_false hl2
            obtain ⟨q1, q2, n1, q3, q4⟩ := pass_log ht hx hl1
            obtain ⟨z1, z2, n2, z3, z4⟩ := pass_log ht hy hl2
            have hbel2 : Below st2.counter st2.conds := by
              rw [z1, q1]; exact hbel.mono (by omega)
            have hsigs := s4 hl3' hbel2 β0 (by rw [z1, q1]; exact ha)
            let β := Function.update (Function.update β0 st.counter false) st1.counter false
            have hβ : ∀ i < st.counter, β i = β0 i := fun i hi => by
              simp only [β]
              rw [Function.update_of_ne (by omega), Function.update_of_ne (by omega)]
            refine ⟨β, hβ, ?_, n1 ++ n2, ?_, ?_⟩
            · rw [m3, z1, q1, act_congr hbel hβ]; exact ha
            · rw [m7, z3, q3, List.append_assoc]
            · rw [hsigs, List.filter_append,
                filter_inactive (k := st.counter) (b := true) (new := n1) ?_ q4,
                filter_inactive (k := st1.counter) (b := true) (new := n2) ?_ z4]
              · rfl
              · simp [β]
              · simp only [β]
                rw [Function.update_of_ne (by omega)]; simp
      · -- condition known to be false
        rename_i st1 hx
        simp only [Except.ok.injEq, Prod.mk.injEq] at h
        obtain ⟨rfl, rfl⟩ := h
        have hub := known _ _ _ hx
        rw [hub] at hc
        simp only [Bool.false_eq_true, if_false, Option.some.injEq, Prod.mk.injEq] at hc
        obtain ⟨rfl, rfl, rfl⟩ := hc
        refine ⟨(by intro v hv; cases hv), fun _ => ?_⟩
        obtain ⟨vc, hvc, hcases⟩ := conditional_cases hx
        rcases hcases with ⟨_, hcr, _⟩ | ⟨_, _, _, rfl, _⟩ | ⟨f, _, _, hf, _⟩ | ⟨_, hcr, _⟩ |
          ⟨f, s1, r1, last, s2, r2, _, hcr, _⟩
        · cases hcr
        · exact Outcome.refl hE
        · cases hf
        · cases hcr
        · cases hcr
      · -- condition known to be true
        rename_i st1 hx
        have hub := known _ _ _ hx
        rw [if_pos hub] at hc
        have hfl : Facts (endIteration st1) st' := kept_facts.whileLoop hstepf _ _ _ _ h
        have hun1 : st1.unstable = false := hfl.unstable_false hun
        cases hb : tb ce with
        | none => rw [hb] at hc; cases hc
        | some x =>
          obtain ⟨ce1, t1, r2⟩ := x
          have ho := (step_sim _ _ _ _ _ _ hx hub hb hun1).2 rfl
          have hr2 := ho.ret
          subst hr2
          rw [hb] at hc
          simp only at hc
          cases hrest : cLoop p w c tb fuel ce1 with
          | none => rw [hrest] at hc; cases hc
          | some y =>
            obtain ⟨ce2, t2, r3⟩ := y
            rw [hrest] at hc
            simp only [Option.map_some, Option.some.injEq, Prod.mk.injEq] at hc
            obtain ⟨rfl, rfl, rfl⟩ := hc
            obtain ⟨i1, i2⟩ := whileLoop_sim hlit ht hts n (endIteration st1) st' r fuel ce1 ce2 t2 r3 h
              hrest ho.env hun
            refine ⟨i1, fun hr => ?_⟩
            have hend : Outcome p w st (endIteration st1) ce1 t1 none := by
              refine ⟨rfl, ho.env, ho.cons, ?_⟩
              intro hl hbel β0 ha
              obtain ⟨β, a1, a2, n', a3, a4⟩ := ho.log hl hbel β0 ha
              refine ⟨β, a1, ?_, n', a3, a4⟩
              show act β st1.conds.dropLast = true
              rw [act_iff] at a2 ⊢
              exact fun x hx => a2 x (List.dropLast_subset _ hx)
            exact Outcome.trans (kept_facts.trans (hstepf _ _ _ _ hx) (kept_facts.endIteration st1)) hfl
              hend (i2 hr)

theorem equality_spec {l r d : V} {a b : Int} {k : Constraint Nat} (hl : RelV p (rho p w) l a)
    (hr : RelV p (rho p w) r b) (hd : Algebra.sub l r p = .ok d) (hk : toConstraint d p = some k) :
    k.Holds (rho p w) ↔ a = b := by
  have hp0 : 0 < p := by omega
  have hρ : rho p w default = 1 := by
    show ((w 0 : Int) : ZMod p) = 1
    rw [h1]; simp
  obtain ⟨d', g1, _, g2⟩ := Verif.Props.Algebra.C13_equality_constraint hp0 l r hl.valid hr.valid
  rw [hd] at g1
  injection g1 with g1
  subst g1
  obtain ⟨x, y, hx, hy, hiff⟩ := g2 k hk (rho p w) hρ
  have n1 : l ≠ .nonQuadratic := by rintro rfl; simp [AExpr.value] at hx
  have n2 : r ≠ .nonQuadratic := by rintro rfl; simp [AExpr.value] at hy
  have e1 := value_of_ne hl n1
  have e2 := value_of_ne hr n2
  rw [hx] at e1; rw [hy] at e2
  injection e1 with e1; injection e2 with e2
  subst e1; subst e2
  rw [hiff, ZMod.intCast_eq_intCast_iff]
  constructor
  · intro h
    have := h
    unfold Int.ModEq at this
    rwa [Int.emod_eq_of_lt hl.canon.1 hl.canon.2, Int.emod_eq_of_lt hr.canon.1 hr.canon.2] at this
  · rintro rfl; rfl

theorem startLoop_outcome {st : St} {ce : CEnv} (hE : RelE p (rho p w) st.env ce) :
    Outcome p w st (startLoop st) ce .nil none where
  ret := rfl
  env := hE
  cons := ⟨[], by simp [startLoop], by simp [Trace.nil]⟩
  log _ hbel β0 ha := by
    refine ⟨Function.update β0 st.counter true, fun i hi => Function.update_of_ne (by omega) _ _, ?_, [],
      by simp [startLoop], by simp [Trace.nil]⟩
    rw [act_iff]
    intro x hx
    rcases List.mem_append.1 hx with hx | hx
    · have := hbel x hx
      rw [Function.update_of_ne (by omega)]
      exact act_iff.1 ha x hx
    · rw [List.mem_singleton.1 hx]; simp

theorem nil_append (t : Trace) : Trace.nil.append t = t := by simp [Trace.nil, Trace.append]

theorem exec_sim (fuel cfuel : Nat) :
    ∀ (s : Stmt) (b : Bool), s.Scoped b → s.Lits p → Simulates p w (exec fuel p s) (run cfuel p w s)
  | .skip, b, hsc, hlit => by
    intro st st' r c c' tr rc h hc hE hun
    simp only [exec, Except.ok.injEq, Prod.mk.injEq] at h
    obtain ⟨rfl, rfl⟩ := h
    simp only [run, Option.some.injEq, Prod.mk.injEq] at hc
    obtain ⟨rfl, rfl, rfl⟩ := hc
    exact ⟨(by intro v hv; cases hv), fun _ => Outcome.refl hE⟩
  | .decl x, b, hsc, hlit => by
    intro st st' r c c' tr rc h hc hE hun
    simp only [exec] at h
    split at h
    · cases h
    · rename_i env henv
      simp only [Except.ok.injEq, Prod.mk.injEq] at h
      obtain ⟨rfl, rfl⟩ := h
      refine ⟨(by intro v hv; cases hv), fun _ => ?_⟩
      cases hE' : st.env with
      | nil => rw [hE'] at henv; simp [envAdd] at henv
      | cons f fs =>
        cases hc' : c with
        | nil => rw [hE', hc'] at hE; cases hE
        | cons g gs =>
          rw [hE', hc'] at hE
          cases hE with
          | cons hfg hrest =>
            subst hc'
            simp only [run, envAdd, Option.map_some, Option.some.injEq, Prod.mk.injEq] at hc
            obtain ⟨rfl, rfl, rfl⟩ := hc
            rw [hE'] at henv
            simp only [envAdd, Option.some.injEq] at henv
            subst henv
            refine ⟨rfl, .cons (.cons ⟨rfl, RelV.nonQuadratic ⟨le_refl _, by omega⟩⟩ hfg) hrest,
              ⟨[], by simp, by simp [Trace.nil]⟩, ?_⟩
            intro _ _ β0 ha
            exact ⟨β0, fun _ _ => rfl, ha, [], by simp, by simp [Trace.nil]⟩
  | .assign x e, b, hsc, hlit => by
    intro st st' r c c' tr rc h hc hE hun
    simp only [exec] at h
    split at h
    · cases h
    · rename_i v hv
      split at h
      · cases h
      · rename_i env henv
        simp only [Except.ok.injEq, Prod.mk.injEq] at h
        obtain ⟨rfl, rfl⟩ := h
        refine ⟨(by intro v hv; cases hv), fun _ => ?_⟩
        simp only [run] at hc
        cases hcv : cEval p w c e with
        | none => rw [hcv] at hc; cases hc
        | some u =>
          rw [hcv] at hc
          simp only at hc
          have hrel : RelV p (rho p w) v u := eval_rel hp hw h1 hE e hlit hv hcv
          have hrel' : RelV p (rho p w) (if st.unknown = true then .nonQuadratic else v) u := by
            split
            · exact RelV.nonQuadratic hrel.canon
            · exact hrel
          rcases envSet_rel (R := RelV p (rho p w)) hE x hrel' with ⟨g1, _⟩ | ⟨b', d', g1, g2, g3⟩
          · rw [g1] at henv; cases henv
          · rw [g1] at henv
            injection henv with henv
            subst henv
            rw [g2] at hc
            simp only [Option.map_some, Option.some.injEq, Prod.mk.injEq] at hc
            obtain ⟨rfl, rfl, rfl⟩ := hc
            refine ⟨rfl, g3, ⟨[], by simp, by simp [Trace.nil]⟩, ?_⟩
            intro _ _ β0 ha
            exact ⟨β0, fun _ _ => rfl, ha, [], by simp, by simp [Trace.nil]⟩
  | .sassign s e, b, hsc, hlit => by
    intro st st' r c c' tr rc h hc hE hun
    simp only [exec] at h
    split at h
    · cases h
    · split at h
      · cases h
      · rename_i st1 hs
        simp only [Except.ok.injEq, Prod.mk.injEq] at h
        obtain ⟨rfl, rfl⟩ := h
        obtain ⟨a, _, rfl⟩ := assignSignal_ok hs
        refine ⟨(by intro v hv; cases hv), fun _ => ?_⟩
        simp only [run] at hc
        cases hcv : cEval p w c e with
        | none => rw [hcv] at hc; cases hc
        | some u =>
          rw [hcv] at hc
          simp only [Option.map_some, Option.some.injEq, Prod.mk.injEq] at hc
          obtain ⟨rfl, rfl, rfl⟩ := hc
          refine ⟨rfl, hE, ⟨[], by simp, by simp⟩, ?_⟩
          intro _ _ β0 ha
          exact ⟨β0, fun _ _ => rfl, ha, [(s, st.conds)], rfl, by simp [ha]⟩
  | .cassign s e, b, hsc, hlit => by
    intro st st' r c c' tr rc h hc hE hun
    simp only [exec] at h
    split at h
    · cases h
    · rename_i v hv
      split at h
      · cases h
      · rename_i st1 hs
        obtain ⟨a, _, rfl⟩ := assignSignal_ok hs
        split at h
        · cases h
        · split at h
          · cases h
          · split at h
            · cases h
            · rename_i st2 h2
              simp only [Except.ok.injEq, Prod.mk.injEq] at h
              obtain ⟨rfl, rfl⟩ := h
              obtain ⟨d, k, hd, hk, rfl⟩ := addEquality_ok h2
              refine ⟨(by intro v hv; cases hv), fun _ => ?_⟩
              simp only [run] at hc
              cases hcv : cEval p w c e with
              | none => rw [hcv] at hc; cases hc
              | some u =>
                rw [hcv] at hc
                simp only [Option.map_some, Option.some.injEq, Prod.mk.injEq] at hc
                obtain ⟨rfl, rfl, rfl⟩ := hc
                have hrel : RelV p (rho p w) v u := eval_rel hp hw h1 hE e hlit hv hcv
                refine ⟨rfl, hE, ⟨[k], rfl, ?_⟩, ?_⟩
                · simp only [List.mem_singleton, forall_eq]
                  exact equality_spec hp hw h1 (l := .signal s) (r := v) (a := w s) (b := u)
                    ⟨hw s, trivial, .inr rfl, by intro v hv; cases hv⟩ hrel hd hk
                · intro _ _ β0 ha
                  exact ⟨β0, fun _ _ => rfl, ha, [(s, st.conds)], rfl, by simp [ha]⟩
  | .check l r, b, hsc, hlit => by
    intro st st' r' c c' tr rc h hc hE hun
    simp only [exec] at h
    split at h
    · cases h
    · split at h
      · cases h
      · rename_i vl hvl
        split at h
        · cases h
        · rename_i vr hvr
          split at h
          · cases h
          · rename_i st2 h2
            simp only [Except.ok.injEq, Prod.mk.injEq] at h
            obtain ⟨rfl, rfl⟩ := h
            obtain ⟨d, k, hd, hk, rfl⟩ := addEquality_ok h2
            refine ⟨(by intro v hv; cases hv), fun _ => ?_⟩
            simp only [run] at hc
            cases hcl : cEval p w c l with
            | none => rw [hcl] at hc; cases hc
            | some a =>
              cases hcr : cEval p w c r with
              | none => rw [hcl, hcr] at hc; cases hc
              | some q =>
                rw [hcl, hcr] at hc
                simp only [Option.some.injEq, Prod.mk.injEq] at hc
                obtain ⟨rfl, rfl, rfl⟩ := hc
                have hl1 : RelV p (rho p w) vl a := eval_rel hp hw h1 hE l hlit.1 hvl hcl
                have hr1 : RelV p (rho p w) vr q := eval_rel hp hw h1 hE r hlit.2 hvr hcr
                refine ⟨rfl, hE, ⟨[k], rfl, ?_⟩, ?_⟩
                · simp only [List.mem_singleton, forall_eq]
                  exact equality_spec hp hw h1 hl1 hr1 hd hk
                · intro _ _ β0 ha
                  exact ⟨β0, fun _ _ => rfl, ha, [], by simp, by simp⟩
  | .seq x y, b, hsc, hlit => by
    intro st st' r c c' tr rc h hc hE hun
    simp only [exec] at h
    simp only [run] at hc
    cases hcx : run cfuel p w x c with
    | none => rw [hcx] at hc; cases hc
    | some q =>
      obtain ⟨c1, t1, r1⟩ := q
      rw [hcx] at hc
      split at h
      · cases h
      · rename_i st1 v hx
        simp only [Except.ok.injEq, Prod.mk.injEq] at h
        obtain ⟨rfl, rfl⟩ := h
        refine ⟨?_, by intro hr; cases hr⟩
        intro v' hv' hne
        obtain ⟨u, hu, hrel⟩ := (exec_sim fuel cfuel x b hsc.1 hlit.1 _ _ _ _ _ _ _ hx hcx hE hun).1 v' hv' hne
        subst hu
        simp only [Option.some.injEq, Prod.mk.injEq] at hc
        obtain ⟨_, _, rfl⟩ := hc
        exact ⟨u, rfl, hrel⟩
      · rename_i st1 hx
        have hun1 : st1.unstable = false := (exec_facts h).unstable_false hun
        have ho := (exec_sim fuel cfuel x b hsc.1 hlit.1 _ _ _ _ _ _ _ hx hcx hE hun1).2 rfl
        have hr1 := ho.ret
        subst hr1
        simp only at hc
        cases hcy : run cfuel p w y c1 with
        | none => rw [hcy] at hc; cases hc
        | some q2 =>
          obtain ⟨c2, t2, r2⟩ := q2
          rw [hcy] at hc
          simp only [Option.map_some, Option.some.injEq, Prod.mk.injEq] at hc
          obtain ⟨rfl, rfl, rfl⟩ := hc
          obtain ⟨i1, i2⟩ := exec_sim fuel cfuel y b hsc.2 hlit.2 _ _ _ _ _ _ _ h hcy ho.env hun
          exact ⟨i1, fun hr => Outcome.trans (exec_facts hx) (exec_facts h) ho (i2 hr)⟩
  | .ifte c0 t none, b, hsc, hlit => by
    intro st st' r c c' tr rc h hc hE hun
    simp only [exec] at h
    split at h
    · cases h
    · rename_i st1 r1 cr hx
      simp only [Except.ok.injEq, Prod.mk.injEq] at h
      obtain ⟨rfl, rfl⟩ := h
      have hcc : cCond p w c0 (run cfuel p w t) cSkip c = some (c', tr, rc) := by
        simp only [run] at hc
        exact hc
      exact conditional_sim hp hw h1 hlit.1 (exec_good fuel p t hsc)
        (exec_sim fuel cfuel t false hsc hlit.2) (by intro f hf; cases hf) (fun _ => rfl) hx hcc hE hun
  | .ifte c0 t (some e), b, hsc, hlit => by
    intro st st' r c c' tr rc h hc hE hun
    simp only [exec] at h
    split at h
    · cases h
    · rename_i st1 r1 cr hx
      simp only [Except.ok.injEq, Prod.mk.injEq] at h
      obtain ⟨rfl, rfl⟩ := h
      have hcc : cCond p w c0 (run cfuel p w t) (run cfuel p w e) c = some (c', tr, rc) := by
        simp only [run] at hc
        exact hc
      exact conditional_sim hp hw h1 hlit.1 (exec_good fuel p t hsc.1)
        (exec_sim fuel cfuel t false hsc.1 hlit.2.1)
        (by
          intro f hf
          injection hf with hf
          subst hf
          exact ⟨exec_good fuel p e hsc.2, exec_sim fuel cfuel e false hsc.2 hlit.2.2⟩)
        (by intro hn; cases hn) hx hcc hE hun
  | .while c0 body, b, hsc, hlit => by
    intro st st' r c c' tr rc h hc hE hun
    simp only [exec] at h
    simp only [run] at hc
    obtain ⟨i1, i2⟩ := whileLoop_sim hp hw h1 hlit.1 (exec_good fuel p body hsc)
      (exec_sim fuel cfuel body false hsc hlit.2) fuel (startLoop st) st' r cfuel c c' tr rc h hc hE hun
    refine ⟨i1, fun hr => ?_⟩
    have hf : Facts (startLoop st) st' := kept_facts.whileLoop
      (fun _ _ _ _ h => kept_facts.conditional (e := none) (fun _ _ _ h => exec_facts h)
        (by intro f hf; cases hf) h) _ _ _ _ h
    have := Outcome.trans (kept_facts.startLoop st) hf (startLoop_outcome hp hw h1 hE) (i2 hr)
    rwa [nil_append hp hw h1] at this
  | .block body, b, hsc, hlit => by
    intro st st' r c c' tr rc h hc hE hun
    simp only [exec] at h
    split at h
    · cases h
    · rename_i st1 r1 hx
      simp only [Except.ok.injEq, Prod.mk.injEq] at h
      obtain ⟨rfl, rfl⟩ := h
      simp only [run] at hc
      cases hcx : run cfuel p w body ([] :: c) with
      | none => rw [hcx] at hc; cases hc
      | some q =>
        obtain ⟨c1, t1, rc1⟩ := q
        rw [hcx] at hc
        simp only [Option.map_some, Option.some.injEq, Prod.mk.injEq] at hc
        obtain ⟨rfl, rfl, rfl⟩ := hc
        obtain ⟨i1, i2⟩ := exec_sim fuel cfuel body true hsc hlit _ _ _ _ _ _ _ hx hcx
          (.cons .nil hE) hun
        refine ⟨i1, fun hr => ?_⟩
        have ho := i2 hr
        refine ⟨ho.ret, ?_, ho.cons, ho.log⟩
        have := ho.env
        show RelE p (rho p w) st1.env.tail c1.tail
        cases hh : st1.env with
        | nil => rw [hh] at this; cases this; exact .nil
        | cons f fs => rw [hh] at this; cases this with | cons _ g => exact g
  | .ret e, b, hsc, hlit => by
    intro st st' r c c' tr rc h hc hE hun
    simp only [exec] at h
    split at h
    · cases h
    · rename_i v hv
      simp only [Except.ok.injEq, Prod.mk.injEq] at h
      obtain ⟨rfl, rfl⟩ := h
      refine ⟨?_, by intro hr; cases hr⟩
      intro v' hv' hne
      injection hv' with hv'
      simp only [run] at hc
      cases hcv : cEval p w c e with
      | none => rw [hcv] at hc; cases hc
      | some u =>
        rw [hcv] at hc
        simp only [Option.map_some, Option.some.injEq, Prod.mk.injEq] at hc
        obtain ⟨_, _, rfl⟩ := hc
        have hrel : RelV p (rho p w) v u := eval_rel hp hw h1 hE e hlit hv hcv
        refine ⟨u, rfl, ?_⟩
        rw [← hv']
        split
        · exact RelV.nonQuadratic hrel.canon
        · exact hrel

end

end Verif.Exec
