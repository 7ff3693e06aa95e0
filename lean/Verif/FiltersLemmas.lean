import Verif.Filters

/-!
Runs on which the analysis is right are not changed by the removal of dead code and constant folding.
-/

set_option linter.unusedSectionVars false
set_option linter.unusedSimpArgs false
set_option linter.unusedVariables false

namespace Verif.Filters

open Verif.ModArith Verif.Algebra Verif.Exec Verif.Analysis

/-- The recorded value of an expression, if any, is its value. -/
def Right (A : Analysis) (field : Int) (w : Nat → Int) (env : CEnv) (e : LExpr) : Prop :=
  ∀ v n, cEval field w env e.erase = some v → readComputed A e.id = .ok (some n) → n = v

/-- The records are right for all parts of the expression that are evaluated. -/
def AgreeE (A : Analysis) (field : Int) (w : Nat → Int) (env : CEnv) : LExpr → Prop
  | .bin i op l r => AgreeE A field w env l ∧ AgreeE A field w env r ∧ Right A field w env (.bin i op l r)
  | .un i op e => AgreeE A field w env e ∧ Right A field w env (.un i op e)
  | .ite i c a b => AgreeE A field w env c ∧
      (∀ v, cEval field w env c.erase = some v → asBool v field = true → AgreeE A field w env a) ∧
      (∀ v, cEval field w env c.erase = some v → asBool v field = false → AgreeE A field w env b) ∧
      Right A field w env (.ite i c a b)
  | e => Right A field w env e

theorem AgreeE.right {A : Analysis} {field : Int} {w : Nat → Int} {env : CEnv} :
    ∀ {e : LExpr}, AgreeE A field w env e → Right A field w env e
  | .num _ _, h => h
  | .var _ _, h => h
  | .sig _ _, h => h
  | .bin _ _ _ _, h => h.2.2
  | .un _ _ _, h => h.2
  | .ite _ _ _ _, h => h.2.2.2

/-- The same along the iterations of a loop. -/
def AgreeLoop (field : Int) (w : Nat → Int) (c : Expr) (agreeC agreeB : CEnv → Prop)
    (body : CEnv → Option (CEnv × Trace × Option Int)) : Nat → CEnv → Prop
  | 0, _ => True
  | n + 1, env => agreeC env ∧ ∀ v, cEval field w env c = some v → asBool v field = true →
      agreeB env ∧ ∀ env1 t r, body env = some (env1, t, r) → AgreeLoop field w c agreeC agreeB body n env1

/-- The records are right for everything executed by a run. -/
def AgreeS (A : Analysis) (field : Int) (w : Nat → Int) (fuel : Nat) : LStmt → CEnv → Prop
  | .nil, _ => True
  | .cons a b, env => AgreeS A field w fuel a env ∧
      ∀ env1 t r, run fuel field w a.erase env = some (env1, t, r) → AgreeS A field w fuel b env1
  | .decl i _, _ => isReached A i = .ok true
  | .assign i _ e, env | .sassign i _ e, env | .cassign i _ e, env =>
    isReached A i = .ok true ∧ AgreeE A field w env e
  | .check i l r, env => isReached A i = .ok true ∧ AgreeE A field w env l ∧ AgreeE A field w env r
  | .ifThen i c t, env => isReached A i = .ok true ∧ AgreeE A field w env c ∧
      ∀ v, cEval field w env c.erase = some v → asBool v field = true → AgreeS A field w fuel t env
  | .ifElse i c t e, env => isReached A i = .ok true ∧ AgreeE A field w env c ∧
      (∀ v, cEval field w env c.erase = some v → asBool v field = true → AgreeS A field w fuel t env) ∧
      (∀ v, cEval field w env c.erase = some v → asBool v field = false → AgreeS A field w fuel e env)
  | .while i c b, env => isReached A i = .ok true ∧
      AgreeLoop field w c.erase (fun env => AgreeE A field w env c) (AgreeS A field w fuel b)
        (run fuel field w b.erase) fuel env
  | .block i b, env => isReached A i = .ok true ∧ AgreeS A field w fuel b ([] :: env)
  | .init i b, env => isReached A i = .ok true ∧ AgreeS A field w fuel b env

/-- The elements of chains are statements, not chains. -/
def LStmt.Proper : LStmt → Prop
  | .cons s rest => s ≠ .nil ∧ (∀ a b, s ≠ .cons a b) ∧ s.Proper ∧ rest.Proper
  | .ifThen _ _ t => t.Proper
  | .ifElse _ _ t e => t.Proper ∧ e.Proper
  | .while _ _ b | .block _ b | .init _ b => b.Proper
  | _ => True

variable {A : Analysis} {field : Int} {w : Nat → Int} {fuel : Nat}

theorem AgreeS.reached {s : LStmt} {env : CEnv} (h : AgreeS A field w fuel s env) (h1 : s ≠ .nil)
    (h2 : ∀ a b, s ≠ .cons a b) : isReached A s.id = .ok true := by
  cases s with
  | nil => exact absurd rfl h1
  | cons a b => exact absurd rfl (h2 a b)
  | decl i x => exact h
  | _ => exact h.1

/-! ### Constant folding -/

theorem foldE_good : ∀ (e e' : LExpr) (env : CEnv) (v : Int), foldE A e = .ok e' →
    AgreeE A field w env e → cEval field w env e.erase = some v → cEval field w env e'.erase = some v := by
  intro e
  have key : ∀ (e e' : LExpr) (env : CEnv) (v : Int), AgreeE A field w env e →
      cEval field w env e.erase = some v → foldE A e = .ok e' →
      (readComputed A e.id = .ok none → cEval field w env e'.erase = some v) →
      cEval field w env e'.erase = some v := by
    intro e e' env v ha hv hf hn
    cases hr : readComputed A e.id with
    | error er => unfold foldE at hf; rw [hr] at hf; cases hf
    | ok o =>
      cases o with
      | none => exact hn hr
      | some n =>
        unfold foldE at hf
        rw [hr] at hf
        simp only [Except.ok.injEq] at hf
        subst hf
        simp only [LExpr.erase, cEval]
        rw [ha.right v n hv hr]
  induction e with
  | num i u =>
    intro e' env v hf ha hv
    refine key _ _ _ _ ha hv hf fun hr => ?_
    unfold foldE at hf; rw [hr] at hf; simp only [Except.ok.injEq] at hf; subst hf; exact hv
  | var i u =>
    intro e' env v hf ha hv
    refine key _ _ _ _ ha hv hf fun hr => ?_
    unfold foldE at hf; rw [hr] at hf; simp only [Except.ok.injEq] at hf; subst hf; exact hv
  | sig i u =>
    intro e' env v hf ha hv
    refine key _ _ _ _ ha hv hf fun hr => ?_
    unfold foldE at hf; rw [hr] at hf; simp only [Except.ok.injEq] at hf; subst hf; exact hv
  | bin i op l r ihl ihr =>
    intro e' env v hf ha hv
    refine key _ _ _ _ ha hv hf fun hr => ?_
    unfold foldE at hf; rw [hr] at hf
    simp only at hf
    split at hf
    · cases hf
    · rename_i l' hl
      split at hf
      · cases hf
      · rename_i r' hr'
        simp only [Except.ok.injEq] at hf
        subst hf
        simp only [LExpr.erase, cEval] at hv ⊢
        cases hlv : cEval field w env l.erase with
        | none => rw [hlv] at hv; simp at hv
        | some x =>
          cases hrv : cEval field w env r.erase with
          | none => rw [hlv, hrv] at hv; simp at hv
          | some y =>
            rw [hlv, hrv] at hv
            rw [ihl _ _ _ hl ha.1 hlv, ihr _ _ _ hr' ha.2.1 hrv]
            exact hv
  | un i op x ih =>
    intro e' env v hf ha hv
    refine key _ _ _ _ ha hv hf fun hr => ?_
    unfold foldE at hf; rw [hr] at hf
    simp only at hf
    split at hf
    · cases hf
    · rename_i x' hx
      simp only [Except.ok.injEq] at hf
      subst hf
      simp only [LExpr.erase, cEval] at hv ⊢
      cases hxv : cEval field w env x.erase with
      | none => rw [hxv] at hv; simp at hv
      | some u =>
        rw [hxv] at hv
        rw [ih _ _ _ hx ha.1 hxv]
        exact hv
  | ite i c a b ihc iha ihb =>
    intro e' env v hf ha hv
    refine key _ _ _ _ ha hv hf fun hr => ?_
    unfold foldE at hf; rw [hr] at hf
    simp only at hf
    split at hf
    · cases hf
    · rename_i a' haa
      split at hf
      · cases hf
      · rename_i b' hbb
        split at hf
        · cases hf
        · rename_i c' hcc
          simp only [Except.ok.injEq] at hf
          subst hf
          simp only [LExpr.erase, cEval] at hv ⊢
          cases hcv : cEval field w env c.erase with
          | none => rw [hcv] at hv; simp at hv
          | some u =>
            rw [hcv] at hv
            rw [ihc _ _ _ hcc ha.1 hcv]
            simp only at hv ⊢
            by_cases hu : asBool u field = true
            · rw [if_pos hu] at hv ⊢
              exact iha _ _ _ haa (ha.2.1 u hcv hu) hv
            · rw [if_neg hu] at hv ⊢
              exact ihb _ _ _ hbb (ha.2.2.1 u hcv (by simpa using hu)) hv

/-- Loops whose conditions and bodies agree where they are used. -/
theorem loop_congr {c c' : Expr} {agreeC agreeB : CEnv → Prop}
    {body body' : CEnv → Option (CEnv × Trace × Option Int)}
    (hc : ∀ env v, agreeC env → cEval field w env c = some v → cEval field w env c' = some v)
    (hb : ∀ env r, agreeB env → body env = some r → body' env = some r) :
    ∀ n env r, AgreeLoop field w c agreeC agreeB body n env → cLoop field w c body n env = some r →
      cLoop field w c' body' n env = some r
  | 0, env, r, ha, h => by simp [cLoop] at h
  | n + 1, env, r, ha, h => by
    rw [cLoop] at h ⊢
    cases hcv : cEval field w env c with
    | none => rw [hcv] at h; simp at h
    | some u =>
      rw [hcv] at h
      rw [hc _ _ ha.1 hcv]
      simp only at h ⊢
      by_cases hu : asBool u field = true
      · rw [if_pos hu] at h ⊢
        obtain ⟨h1, h2⟩ := ha.2 u hcv hu
        cases hbv : body env with
        | none => rw [hbv] at h; simp at h
        | some x =>
          obtain ⟨env1, t1, r1⟩ := x
          rw [hbv] at h
          rw [hb _ _ h1 hbv]
          cases r1 with
          | some v => exact h
          | none =>
            simp only at h ⊢
            cases hrest : cLoop field w c body n env1 with
            | none => rw [hrest] at h; simp at h
            | some y =>
              rw [hrest] at h
              rw [loop_congr hc hb n env1 y (h2 _ _ _ hbv) hrest]
              exact h
      · rw [if_neg hu] at h ⊢
        exact h

theorem foldS_good : ∀ (s s' : LStmt) (env : CEnv) (r : CEnv × Trace × Option Int), foldS A s = .ok s' →
    AgreeS A field w fuel s env → run fuel field w s.erase env = some r →
    run fuel field w s'.erase env = some r
  | .nil, s', env, r, hf, ha, h => by
    simp only [foldS, Except.ok.injEq] at hf; subst hf; exact h
  | .decl i x, s', env, r, hf, ha, h => by
    simp only [foldS, Except.ok.injEq] at hf; subst hf; exact h
  | .cons a b, s', env, r, hf, ha, h => by
    simp only [foldS] at hf
    split at hf
    · cases hf
    · rename_i a' ha'
      split at hf
      · cases hf
      · rename_i b' hb'
        simp only [Except.ok.injEq] at hf
        subst hf
        simp only [LStmt.erase, run] at h ⊢
        cases hx : run fuel field w a.erase env with
        | none => rw [hx] at h; simp at h
        | some x =>
          rw [foldS_good a a' env x ha' ha.1 hx]
          obtain ⟨env1, t1, r1⟩ := x
          rw [hx] at h
          cases r1 with
          | some v => exact h
          | none =>
            simp only at h ⊢
            cases hy : run fuel field w b.erase env1 with
            | none => rw [hy] at h; simp at h
            | some y =>
              rw [foldS_good b b' env1 y hb' (ha.2 _ _ _ hx) hy]
              rw [hy] at h
              exact h
  | .assign i x e, s', env, r, hf, ha, h => by
    simp only [foldS] at hf
    split at hf
    · cases hf
    · rename_i e' he
      simp only [Except.ok.injEq] at hf
      subst hf
      simp only [LStmt.erase, run] at h ⊢
      cases hv : cEval field w env e.erase with
      | none => rw [hv] at h; simp at h
      | some v => rw [foldE_good e e' env v he ha.2 hv]; rw [hv] at h; exact h
  | .sassign i x e, s', env, r, hf, ha, h => by
    simp only [foldS] at hf
    split at hf
    · cases hf
    · rename_i e' he
      simp only [Except.ok.injEq] at hf
      subst hf
      simp only [LStmt.erase, run] at h ⊢
      cases hv : cEval field w env e.erase with
      | none => rw [hv] at h; simp at h
      | some v => rw [foldE_good e e' env v he ha.2 hv]; rw [hv] at h; exact h
  | .cassign i x e, s', env, r, hf, ha, h => by
    simp only [foldS] at hf
    split at hf
    · cases hf
    · rename_i e' he
      simp only [Except.ok.injEq] at hf
      subst hf
      simp only [LStmt.erase, run] at h ⊢
      cases hv : cEval field w env e.erase with
      | none => rw [hv] at h; simp at h
      | some v => rw [foldE_good e e' env v he ha.2 hv]; rw [hv] at h; exact h
  | .check i x y, s', env, r, hf, ha, h => by
    simp only [foldS] at hf
    split at hf
    · cases hf
    · rename_i x' hx'
      split at hf
      · cases hf
      · rename_i y' hy'
        simp only [Except.ok.injEq] at hf
        subst hf
        simp only [LStmt.erase, run] at h ⊢
        cases hv : cEval field w env x.erase with
        | none => rw [hv] at h; simp at h
        | some v =>
          cases hu : cEval field w env y.erase with
          | none => rw [hv, hu] at h; simp at h
          | some u =>
            rw [foldE_good x x' env v hx' ha.2.1 hv, foldE_good y y' env u hy' ha.2.2 hu]
            rw [hv, hu] at h
            exact h
  | .ifThen i c t, s', env, r, hf, ha, h => by
    simp only [foldS] at hf
    split at hf
    · cases hf
    · rename_i c' hc'
      split at hf
      · cases hf
      · rename_i t' ht'
        simp only [Except.ok.injEq] at hf
        subst hf
        simp only [LStmt.erase, run] at h ⊢
        cases hv : cEval field w env c.erase with
        | none => rw [hv] at h; simp at h
        | some v =>
          rw [hv] at h
          rw [foldE_good c c' env v hc' ha.2.1 hv]
          simp only at h ⊢
          by_cases hu : asBool v field = true
          · rw [if_pos hu] at h ⊢
            exact foldS_good t t' env r ht' (ha.2.2 v hv hu) h
          · rw [if_neg hu] at h ⊢
            exact h
  | .ifElse i c t e, s', env, r, hf, ha, h => by
    simp only [foldS] at hf
    split at hf
    · cases hf
    · rename_i c' hc'
      split at hf
      · cases hf
      · rename_i t' ht'
        split at hf
        · cases hf
        · rename_i e' he'
          simp only [Except.ok.injEq] at hf
          subst hf
          simp only [LStmt.erase, run] at h ⊢
          cases hv : cEval field w env c.erase with
          | none => rw [hv] at h; simp at h
          | some v =>
            rw [hv] at h
            rw [foldE_good c c' env v hc' ha.2.1 hv]
            simp only at h ⊢
            by_cases hu : asBool v field = true
            · rw [if_pos hu] at h ⊢
              exact foldS_good t t' env r ht' (ha.2.2.1 v hv hu) h
            · rw [if_neg hu] at h ⊢
              exact foldS_good e e' env r he' (ha.2.2.2 v hv (by simpa using hu)) h
  | .while i c b, s', env, r, hf, ha, h => by
    simp only [foldS] at hf
    split at hf
    · cases hf
    · rename_i c' hc'
      split at hf
      · cases hf
      · rename_i b' hb'
        simp only [Except.ok.injEq] at hf
        subst hf
        simp only [LStmt.erase, run] at h ⊢
        exact loop_congr (fun env v ha hv => foldE_good c c' env v hc' ha hv)
          (fun env r ha hr => foldS_good b b' env r hb' ha hr) fuel env r ha.2 h
  | .block i b, s', env, r, hf, ha, h => by
    simp only [foldS] at hf
    split at hf
    · cases hf
    · rename_i b' hb'
      simp only [Except.ok.injEq] at hf
      subst hf
      simp only [LStmt.erase, run] at h ⊢
      cases hx : run fuel field w b.erase ([] :: env) with
      | none => rw [hx] at h; simp at h
      | some x => rw [foldS_good b b' _ x hb' ha.2 hx]; rw [hx] at h; exact h
  | .init i b, s', env, r, hf, ha, h => by
    simp only [foldS] at hf
    split at hf
    · cases hf
    · rename_i b' hb'
      simp only [Except.ok.injEq] at hf
      subst hf
      simp only [LStmt.erase] at h ⊢
      exact foldS_good b b' _ r hb' ha.2 h

/-! ### Removal of dead code -/

theorem choose_ok {c : LExpr} {keep yes no s : LStmt} (h : choose A field c keep yes no = .ok s) :
    (readComputed A c.id = .ok none ∧ s = keep) ∨
    (∃ v, readComputed A c.id = .ok (some v) ∧ asBool v field = true ∧ s = yes) ∨
    (∃ v, readComputed A c.id = .ok (some v) ∧ asBool v field = false ∧ s = no) := by
  unfold choose at h
  split at h
  · cases h
  · rename_i hr
    simp only [Except.ok.injEq] at h
    exact .inl ⟨hr, h.symm⟩
  · rename_i v hr
    by_cases hv : asBool v field = true
    · rw [if_pos hv] at h
      simp only [Except.ok.injEq] at h
      exact .inr (.inl ⟨v, hr, hv, h.symm⟩)
    · rw [if_neg hv] at h
      simp only [Except.ok.injEq] at h
      exact .inr (.inr ⟨v, hr, by simpa using hv, h.symm⟩)

/-- Nothing happened. -/
def Idle (env : CEnv) (r : CEnv × Trace × Option Int) : Prop := r = (env, .nil, none)

theorem loop_noret {c : Expr} {body : CEnv → Option (CEnv × Trace × Option Int)}
    (hb : ∀ env r, body env = some r → r.2.2 = none) :
    ∀ n env r, cLoop field w c body n env = some r → r.2.2 = none
  | 0, env, r, h => by simp [cLoop] at h
  | n + 1, env, r, h => by
    rw [cLoop] at h
    split at h
    · cases h
    · split at h
      · split at h
        · cases h
        · rename_i hx
          simp only [Option.some.injEq] at h
          subst h
          exact hb _ _ hx
        · rename_i env1 t1 hx
          cases hrest : cLoop field w c body n env1 with
          | none => rw [hrest] at h; simp at h
          | some y =>
            rw [hrest] at h
            simp only [Option.map_some, Option.some.injEq] at h
            subst h
            exact loop_noret hb n env1 y hrest
      · simp only [Option.some.injEq] at h
        subst h; rfl

/-- Templates do not return. -/
theorem run_noret : ∀ (s : LStmt) (env : CEnv) (r : CEnv × Trace × Option Int),
    run fuel field w s.erase env = some r → r.2.2 = none
  | .nil, env, r, h => by simp only [LStmt.erase, run, Option.some.injEq] at h; subst h; rfl
  | .decl i x, env, r, h => by
    simp only [LStmt.erase, run, Option.map_eq_some_iff] at h
    obtain ⟨_, _, rfl⟩ := h; rfl
  | .assign i x e, env, r, h => by
    simp only [LStmt.erase, run] at h
    split at h
    · cases h
    · simp only [Option.map_eq_some_iff] at h
      obtain ⟨_, _, rfl⟩ := h; rfl
  | .sassign i x e, env, r, h => by
    simp only [LStmt.erase, run, Option.map_eq_some_iff] at h
    obtain ⟨_, _, rfl⟩ := h; rfl
  | .cassign i x e, env, r, h => by
    simp only [LStmt.erase, run, Option.map_eq_some_iff] at h
    obtain ⟨_, _, rfl⟩ := h; rfl
  | .check i x e, env, r, h => by
    simp only [LStmt.erase, run] at h
    split at h
    · simp only [Option.some.injEq] at h; subst h; rfl
    · cases h
  | .cons a b, env, r, h => by
    simp only [LStmt.erase, run] at h
    split at h
    · cases h
    · rename_i hx
      exact absurd (run_noret a _ _ hx) (by simp)
    · simp only [Option.map_eq_some_iff] at h
      obtain ⟨y, hy, rfl⟩ := h
      exact run_noret b _ y hy
  | .ifThen i c t, env, r, h => by
    simp only [LStmt.erase, run] at h
    split at h
    · cases h
    · split at h
      · exact run_noret t _ _ h
      · simp only [Option.some.injEq] at h; subst h; rfl
  | .ifElse i c t e, env, r, h => by
    simp only [LStmt.erase, run] at h
    split at h
    · cases h
    · split at h
      · exact run_noret t _ _ h
      · exact run_noret e _ _ h
  | .while i c b, env, r, h => by
    simp only [LStmt.erase, run] at h
    exact loop_noret (fun env r hr => run_noret b env r hr) _ _ _ h
  | .block i b, env, r, h => by
    simp only [LStmt.erase, run, Option.map_eq_some_iff] at h
    obtain ⟨y, hy, rfl⟩ := h
    exact run_noret b _ y hy
  | .init i b, env, r, h => by
    simp only [LStmt.erase] at h
    exact run_noret b _ r h

/-- A loop whose body is replaced by one that does the same. -/
theorem loop_clean {c : Expr} {agreeC agreeB agreeB' : CEnv → Prop}
    {body body' : CEnv → Option (CEnv × Trace × Option Int)} {n : Bool}
    (hb : ∀ env r, agreeB env → body env = some r →
      body' env = some r ∧ agreeB' env ∧ (n = true → Idle env r))
    (hnr : ∀ env r, body env = some r → r.2.2 = none) :
    ∀ k env r, AgreeLoop field w c agreeC agreeB body k env → cLoop field w c body k env = some r →
      cLoop field w c body' k env = some r ∧ AgreeLoop field w c agreeC agreeB' body' k env ∧
      (n = true → Idle env r)
  | 0, env, r, ha, h => by simp [cLoop] at h
  | k + 1, env, r, ha, h => by
    rw [cLoop] at h ⊢
    cases hcv : cEval field w env c with
    | none => rw [hcv] at h; simp at h
    | some u =>
      rw [hcv] at h
      simp only at h ⊢
      by_cases hu : asBool u field = true
      · rw [if_pos hu] at h ⊢
        obtain ⟨h1, h2⟩ := ha.2 u hcv hu
        cases hbv : body env with
        | none => rw [hbv] at h; simp at h
        | some x =>
          obtain ⟨env1, t1, r1⟩ := x
          obtain ⟨b1, b2, b3⟩ := hb _ _ h1 hbv
          rw [hbv] at h
          rw [b1]
          cases r1 with
          | some v => exact absurd (hnr _ _ hbv) (by simp)
          | none =>
            simp only at h ⊢
            cases hrest : cLoop field w c body k env1 with
            | none => rw [hrest] at h; simp at h
            | some y =>
              rw [hrest] at h
              obtain ⟨i1, i2, i3⟩ := loop_clean hb hnr k env1 y (h2 _ _ _ hbv) hrest
              rw [i1]
              refine ⟨h, ⟨ha.1, fun v' hv' hb' => ⟨b2, ?_⟩⟩, ?_⟩
              · intro e1 t1' r1' hx
                rw [b1] at hx
                simp only [Option.some.injEq, Prod.mk.injEq] at hx
                obtain ⟨rfl, rfl, rfl⟩ := hx
                exact i2
              · intro hn
                have e1 := b3 hn
                have e2 := i3 hn
                simp only [Idle, Prod.mk.injEq] at e1 e2
                obtain ⟨rfl, rfl, _⟩ := e1
                subst e2
                simp only [Option.map_some, Option.some.injEq] at h
                subst h
                rfl
      · rw [if_neg hu] at h ⊢
        refine ⟨h, ⟨ha.1, fun v hv hb' => ?_⟩, ?_⟩
        · rw [hcv] at hv
          injection hv with hv
          subst hv
          exact absurd hb' hu
        · intro _
          simp only [Option.some.injEq] at h
          exact h.symm

theorem clean_good : ∀ (s s' : LStmt) (n : Bool) (env : CEnv) (r : CEnv × Trace × Option Int), s.Proper →
    clean A field s = .ok (s', n) → AgreeS A field w fuel s env → run fuel field w s.erase env = some r →
    run fuel field w s'.erase env = some r ∧ AgreeS A field w fuel s' env ∧ (n = true → Idle env r)
  | .nil, s', n, env, r, hp, hf, ha, h => by
    simp only [clean, Except.ok.injEq, Prod.mk.injEq] at hf
    obtain ⟨rfl, rfl⟩ := hf
    refine ⟨h, ha, fun _ => ?_⟩
    simp only [LStmt.erase, run, Option.some.injEq] at h
    exact h.symm
  | .decl i x, s', n, env, r, hp, hf, ha, h => by
    simp only [clean, Except.ok.injEq, Prod.mk.injEq] at hf
    obtain ⟨rfl, rfl⟩ := hf
    exact ⟨h, ha, by simp⟩
  | .assign i x e, s', n, env, r, hp, hf, ha, h => by
    simp only [clean, Except.ok.injEq, Prod.mk.injEq] at hf
    obtain ⟨rfl, rfl⟩ := hf
    exact ⟨h, ha, by simp⟩
  | .sassign i x e, s', n, env, r, hp, hf, ha, h => by
    simp only [clean, Except.ok.injEq, Prod.mk.injEq] at hf
    obtain ⟨rfl, rfl⟩ := hf
    exact ⟨h, ha, by simp⟩
  | .cassign i x e, s', n, env, r, hp, hf, ha, h => by
    simp only [clean, Except.ok.injEq, Prod.mk.injEq] at hf
    obtain ⟨rfl, rfl⟩ := hf
    exact ⟨h, ha, by simp⟩
  | .check i x e, s', n, env, r, hp, hf, ha, h => by
    simp only [clean, Except.ok.injEq, Prod.mk.injEq] at hf
    obtain ⟨rfl, rfl⟩ := hf
    exact ⟨h, ha, by simp⟩
  | .init i b, s', n, env, r, hp, hf, ha, h => by
    simp only [clean, Except.ok.injEq, Prod.mk.injEq] at hf
    obtain ⟨rfl, rfl⟩ := hf
    exact ⟨h, ha, by simp⟩
  | .block i b, s', n, env, r, hp, hf, ha, h => by
    simp only [clean] at hf
    split at hf
    · cases hf
    · rename_i b' m hb
      simp only [Except.ok.injEq, Prod.mk.injEq] at hf
      obtain ⟨rfl, rfl⟩ := hf
      simp only [LStmt.erase, run, Option.map_eq_some_iff] at h ⊢
      obtain ⟨y, hy, rfl⟩ := h
      obtain ⟨h1, h2, h3⟩ := clean_good b b' m _ y hp hb ha.2 hy
      refine ⟨⟨y, h1, rfl⟩, ⟨ha.1, h2⟩, fun hm => ?_⟩
      have := h3 hm
      simp only [Idle] at this
      subst this
      rfl
  | .cons a b, s', n, env, r, hp, hf, ha, h => by
    obtain ⟨p1, p2, p3, p4⟩ := hp
    simp only [clean, ha.1.reached p1 p2] at hf
    simp only [LStmt.erase, run] at h
    cases hx : run fuel field w a.erase env with
    | none => rw [hx] at h; simp at h
    | some x =>
      obtain ⟨env1, t1, r1⟩ := x
      have hr1 := run_noret a _ _ hx
      simp only at hr1
      subst hr1
      rw [hx] at h
      simp only [Option.map_eq_some_iff] at h
      obtain ⟨y, hy, rfl⟩ := h
      split at hf
      · cases hf
      · rename_i a' na hca
        split at hf
        · cases hf
        · rename_i b' nb hcb
          obtain ⟨a1, a2, a3⟩ := clean_good a a' na env _ p3 hca ha.1 hx
          obtain ⟨b1, b2, b3⟩ := clean_good b b' nb env1 _ p4 hcb (ha.2 _ _ _ hx) hy
          split at hf
          · rename_i hna
            simp only [Except.ok.injEq, Prod.mk.injEq] at hf
            obtain ⟨rfl, rfl⟩ := hf
            have hi := a3 hna
            simp only [Idle, Prod.mk.injEq] at hi
            obtain ⟨rfl, rfl, _⟩ := hi
            have e : (y.1, Trace.nil.append y.2.1, y.2.2) = y := by simp [Trace.append, Trace.nil]
            rw [e]
            exact ⟨b1, b2, b3⟩
          · simp only [Except.ok.injEq, Prod.mk.injEq] at hf
            obtain ⟨rfl, rfl⟩ := hf
            refine ⟨?_, ⟨a2, ?_⟩, by simp⟩
            · simp only [LStmt.erase, run, a1, b1, Option.map_some]
            · intro e1 t r hr
              rw [a1] at hr
              simp only [Option.some.injEq, Prod.mk.injEq] at hr
              obtain ⟨rfl, rfl, rfl⟩ := hr
              exact b2
  | .while i c b, s', n, env, r, hp, hf, ha, h => by
    simp only [clean] at hf
    split at hf
    · cases hf
    · rename_i b' m hb
      simp only [Except.ok.injEq, Prod.mk.injEq] at hf
      obtain ⟨rfl, rfl⟩ := hf
      simp only [LStmt.erase, run] at h ⊢
      obtain ⟨h1, h2, h3⟩ := loop_clean (agreeB' := AgreeS A field w fuel b')
        (body' := run fuel field w b'.erase)
        (fun env r hA hr => clean_good b b' m env r hp hb hA hr)
        (fun env r hr => run_noret b env r hr) fuel env r ha.2 h
      exact ⟨h1, ⟨ha.1, h2⟩, h3⟩
  | .ifThen i c t, s', n, env, r, hp, hf, ha, h => by
    obtain ⟨ha1, ha2, ha3⟩ := ha
    simp only [clean] at hf
    split at hf
    · cases hf
    · rename_i t' m ht
      split at hf
      · cases hf
      · rename_i s hs
        simp only [Except.ok.injEq, Prod.mk.injEq] at hf
        obtain ⟨rfl, rfl⟩ := hf
        simp only [LStmt.erase, run] at h
        cases hcv : cEval field w env c.erase with
        | none => rw [hcv] at h; simp at h
        | some u =>
          rw [hcv] at h
          simp only at h
          by_cases hu : asBool u field = true
          · rw [if_pos hu] at h
            obtain ⟨h1, h2, h3⟩ := clean_good t t' m env r hp ht (ha3 u hcv hu) h
            rcases choose_ok hs with ⟨_, rfl⟩ | ⟨v, _, _, rfl⟩ | ⟨v, hv, hvb, rfl⟩
            · refine ⟨?_, ⟨ha1, ha2, fun _ _ _ => h2⟩, h3⟩
              simp only [LStmt.erase, run, hcv, hu, if_true, h1]
            · exact ⟨h1, h2, h3⟩
            · have := ha2.right u v hcv hv
              subst this
              rw [hu] at hvb; cases hvb
          · rw [if_neg hu] at h
            simp only [Option.some.injEq] at h
            have hi : Idle env r := h.symm
            rcases choose_ok hs with ⟨_, rfl⟩ | ⟨v, hv, hvb, rfl⟩ | ⟨v, hv, hvb, rfl⟩
            · refine ⟨?_, ⟨ha1, ha2, fun v hv hvb => ?_⟩, fun _ => hi⟩
              · simp only [LStmt.erase, run, hcv, hu, if_false, h, Bool.false_eq_true]
              · rw [hcv] at hv
                injection hv with hv
                subst hv
                exact absurd hvb hu
            · have := ha2.right u v hcv hv
              subst this
              exact absurd hvb hu
            · refine ⟨?_, ⟨ha1, trivial⟩, fun _ => hi⟩
              rw [← h]
              rfl
  | .ifElse i c t e, s', n, env, r, hp, hf, ha, h => by
    obtain ⟨ha1, ha2, ha3, ha4⟩ := ha
    simp only [clean] at hf
    split at hf
    · cases hf
    · rename_i t' m ht
      split at hf
      · cases hf
      · rename_i e' k he
        split at hf
        · cases hf
        · rename_i s hs
          simp only [Except.ok.injEq, Prod.mk.injEq] at hf
          obtain ⟨rfl, rfl⟩ := hf
          simp only [LStmt.erase, run] at h
          cases hcv : cEval field w env c.erase with
          | none => rw [hcv] at h; simp at h
          | some u =>
            rw [hcv] at h
            simp only at h
            by_cases hu : asBool u field = true
            · rw [if_pos hu] at h
              obtain ⟨h1, h2, h3⟩ := clean_good t t' m env r hp.1 ht (ha3 u hcv hu) h
              have no : ∀ v, cEval field w env c.erase = some v → asBool v field = false → False := by
                intro v hv hvb
                rw [hcv] at hv
                injection hv with hv
                subst hv
                rw [hu] at hvb; cases hvb
              rcases choose_ok hs with ⟨_, rfl⟩ | ⟨v, _, _, rfl⟩ | ⟨v, hv, hvb, rfl⟩
              · cases k with
                | true =>
                  refine ⟨?_, ⟨ha1, ha2, fun _ _ _ => h2⟩, by simpa using h3⟩
                  simp only [LStmt.erase, run, hcv, hu, if_true, h1]
                | false =>
                  refine ⟨?_, ⟨ha1, ha2, fun _ _ _ => h2, fun v hv hvb => (no v hv hvb).elim⟩, by simp⟩
                  simp only [LStmt.erase, run, hcv, hu, if_true, h1, Bool.false_eq_true, if_false]
              · refine ⟨h1, h2, fun hn => h3 ?_⟩
                simp only [Bool.and_eq_true] at hn
                exact hn.1
              · have := ha2.right u v hcv hv
                subst this
                rw [hu] at hvb; cases hvb
            · rw [if_neg hu] at h
              have hu' : asBool u field = false := by simpa using hu
              obtain ⟨h1, h2, h3⟩ := clean_good e e' k env r hp.2 he (ha4 u hcv hu') h
              have no : ∀ v, cEval field w env c.erase = some v → asBool v field = true → False := by
                intro v hv hvb
                rw [hcv] at hv
                injection hv with hv
                subst hv
                exact hu hvb
              rcases choose_ok hs with ⟨_, rfl⟩ | ⟨v, hv, hvb, rfl⟩ | ⟨v, hv, hvb, rfl⟩
              · cases k with
                | true =>
                  have hi := h3 rfl
                  refine ⟨?_, ⟨ha1, ha2, fun v hv hvb => (no v hv hvb).elim⟩, fun _ => hi⟩
                  simp only [Idle] at hi
                  subst hi
                  simp only [LStmt.erase, run, hcv, hu', Bool.false_eq_true, if_false, if_true]
                | false =>
                  refine ⟨?_, ⟨ha1, ha2, fun v hv hvb => (no v hv hvb).elim, fun _ _ _ => h2⟩, by simp⟩
                  simp only [LStmt.erase, run, hcv, hu', Bool.false_eq_true, if_false, h1]
              · have := ha2.right u v hcv hv
                subst this
                exact absurd hvb hu
              · cases k with
                | true =>
                  have hi := h3 rfl
                  refine ⟨?_, ⟨ha1, trivial⟩, fun _ => hi⟩
                  simp only [Idle] at hi
                  subst hi
                  rfl
                | false =>
                  exact ⟨h1, h2, by simp⟩

/-- Both filters together. -/
theorem filterCode_good {s s' : LStmt} {env : CEnv} {r : CEnv × Trace × Option Int} (hp : s.Proper)
    (hf : filterCode A field s = .ok s') (ha : AgreeS A field w fuel s env)
    (h : run fuel field w s.erase env = some r) : run fuel field w s'.erase env = some r := by
  unfold filterCode at hf
  split at hf
  · cases hf
  · rename_i s1 n h1
    obtain ⟨g1, g2, _⟩ := clean_good s s1 n env r hp h1 ha h
    exact foldS_good s1 s' env r hf g2 g1

end Verif.Filters
