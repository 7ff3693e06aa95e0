import Verif.FiltersLemmas

/-!
Runs in which the values assigned by `<--` are recorded as well. The concrete execution of
`Verif.Exec` records the pairs compared by `===` and `<==` and which signals are assigned; the value
assigned by `<--` is made visible by recording it as if the assignment were `<==`.
-/

set_option linter.unusedSectionVars false
set_option linter.unusedSimpArgs false
set_option linter.unusedVariables false

namespace Verif.Filters

open Verif.ModArith Verif.Algebra Verif.Exec Verif.Analysis

/-- Not in the compiler: `<--` recorded like `<==`. -/
def LStmt.loud : LStmt → LStmt
  | .nil => .nil
  | .cons s rest => .cons s.loud rest.loud
  | .decl i x => .decl i x
  | .assign i x e => .assign i x e
  | .sassign i s e => .cassign i s e
  | .cassign i s e => .cassign i s e
  | .check i l r => .check i l r
  | .ifThen i c t => .ifThen i c t.loud
  | .ifElse i c t e => .ifElse i c t.loud e.loud
  | .while i c b => .while i c b.loud
  | .block i b => .block i b.loud
  | .init i b => .init i b.loud

/-- The concrete execution of a template: the variables at the end, and in order all pairs (value of
the signal, value assigned or compared). -/
def runAll (fuel : Nat) (field : Int) (w : Nat → Int) (s : LStmt) (env : CEnv) :
    Option (CEnv × Trace × Option Int) := run fuel field w s.loud.erase env

/-- A run without its trace. -/
def quiet (r : Option (CEnv × Trace × Option Int)) : Option (CEnv × Option Int) :=
  r.map fun x => (x.1, x.2.2)

theorem quiet_some {a b : Option (CEnv × Trace × Option Int)} (h : quiet a = quiet b) {env : CEnv}
    {t : Trace} {r : Option Int} (hb : b = some (env, t, r)) : ∃ t', a = some (env, t', r) := by
  subst hb
  match a, h with
  | some (e', t', r'), h =>
    simp only [quiet, Option.map_some, Option.some.injEq, Prod.mk.injEq] at h
    obtain ⟨rfl, rfl⟩ := h
    exact ⟨t', rfl⟩

theorem quiet_none {a b : Option (CEnv × Trace × Option Int)} (h : quiet a = quiet b) (hb : b = none) :
    a = none := by
  subst hb
  cases a with
  | none => rfl
  | some x => simp [quiet] at h

variable {A : Analysis} {field : Int} {w : Nat → Int} {fuel : Nat}

/-- What follows a first part depends only on its variables and result. -/
theorem quiet_then {a b : Option (CEnv × Trace × Option Int)} (h : quiet a = quiet b)
    {f g : CEnv → Option (CEnv × Trace × Option Int)} (hfg : ∀ env, quiet (f env) = quiet (g env)) :
    quiet (match (generalizing := false) a with
      | none => none
      | some (env1, t1, some r) => some (env1, t1, some r)
      | some (env1, t1, none) => (f env1).map fun x => (x.1, t1.append x.2.1, x.2.2)) =
    quiet (match (generalizing := false) b with
      | none => none
      | some (env1, t1, some r) => some (env1, t1, some r)
      | some (env1, t1, none) => (g env1).map fun x => (x.1, t1.append x.2.1, x.2.2)) := by
  match b, h with
  | none, h => rw [quiet_none h rfl]
  | some (e1, t1, some r), h =>
    obtain ⟨t', rfl⟩ := quiet_some h rfl
    rfl
  | some (e1, t1, none), h =>
    obtain ⟨t', rfl⟩ := quiet_some h rfl
    have := hfg e1
    simp only [quiet, Option.map_map] at this ⊢
    exact this

theorem quiet_loop {c : Expr} {f g : CEnv → Option (CEnv × Trace × Option Int)}
    (hfg : ∀ env, quiet (f env) = quiet (g env)) : ∀ (n : Nat) (env : CEnv),
    quiet (cLoop field w c f n env) = quiet (cLoop field w c g n env)
  | 0, env => rfl
  | n + 1, env => by
    simp only [cLoop]
    cases cEval field w env c with
    | none => rfl
    | some v =>
      simp only
      by_cases hv : asBool v field = true
      · rw [if_pos hv, if_pos hv]
        exact quiet_then (hfg env) (quiet_loop hfg n)
      · rw [if_neg hv, if_neg hv]

/-- Recording more does not change the run. -/
theorem loud_quiet : ∀ (s : LStmt) (env : CEnv),
    quiet (run fuel field w s.erase env) = quiet (run fuel field w s.loud.erase env)
  | .nil, env => rfl
  | .cons a b, env => by
    simp only [LStmt.loud, LStmt.erase, run]
    exact quiet_then (loud_quiet a env) (loud_quiet b)
  | .decl _ _, env => rfl
  | .assign _ _ _, env => rfl
  | .sassign _ _ e, env => by
    simp only [LStmt.loud, LStmt.erase, run]
    cases cEval field w env e.erase <;> rfl
  | .cassign _ _ _, env => rfl
  | .check _ _ _, env => rfl
  | .ifThen _ c t, env => by
    simp only [LStmt.loud, LStmt.erase, run]
    cases cEval field w env c.erase with
    | none => rfl
    | some v =>
      simp only
      by_cases hv : asBool v field = true
      · rw [if_pos hv, if_pos hv]; exact loud_quiet t env
      · rw [if_neg hv, if_neg hv]
  | .ifElse _ c t e, env => by
    simp only [LStmt.loud, LStmt.erase, run]
    cases cEval field w env c.erase with
    | none => rfl
    | some v =>
      simp only
      by_cases hv : asBool v field = true
      · rw [if_pos hv, if_pos hv]; exact loud_quiet t env
      · rw [if_neg hv, if_neg hv]; exact loud_quiet e env
  | .while _ c b, env => by
    simp only [LStmt.loud, LStmt.erase, run]
    exact quiet_loop (loud_quiet b) fuel env
  | .block _ b, env => by
    simp only [LStmt.loud, LStmt.erase, run]
    have := loud_quiet b ([] :: env)
    generalize run fuel field w b.erase ([] :: env) = x at this ⊢
    generalize run fuel field w b.loud.erase ([] :: env) = y at this ⊢
    match x, this with
    | none, h => rw [quiet_none h.symm rfl]
    | some (e1, t1, r), h =>
      obtain ⟨t', rfl⟩ := quiet_some h.symm rfl
      rfl
  | .init _ b, env => loud_quiet b env

theorem loud_run {s : LStmt} {env env1 : CEnv} {t : Trace} {r : Option Int}
    (h : run fuel field w s.loud.erase env = some (env1, t, r)) :
    ∃ t', run fuel field w s.erase env = some (env1, t', r) := quiet_some (loud_quiet s env) h

theorem agreeLoop_loud {c : Expr} {aC aB aB' : CEnv → Prop}
    {f g : CEnv → Option (CEnv × Trace × Option Int)} (hB : ∀ env, aB env → aB' env)
    (hfg : ∀ env, quiet (f env) = quiet (g env)) : ∀ (n : Nat) (env : CEnv),
    AgreeLoop field w c aC aB f n env → AgreeLoop field w c aC aB' g n env
  | 0, _, _ => trivial
  | n + 1, env, h => by
    refine ⟨h.1, fun v hv hb => ?_⟩
    obtain ⟨g1, g2⟩ := h.2 v hv hb
    refine ⟨hB env g1, fun env1 t r hr => ?_⟩
    obtain ⟨t', ht'⟩ := quiet_some (hfg env) hr
    exact agreeLoop_loud hB hfg n env1 (g2 env1 t' r ht')

theorem agree_loud : ∀ (s : LStmt) (env : CEnv), AgreeS A field w fuel s env →
    AgreeS A field w fuel s.loud env
  | .nil, _, h => h
  | .cons a b, env, h => by
    refine ⟨agree_loud a env h.1, fun env1 t r hr => ?_⟩
    obtain ⟨t', ht'⟩ := loud_run hr
    exact agree_loud b env1 (h.2 env1 t' r ht')
  | .decl _ _, _, h => h
  | .assign _ _ _, _, h => h
  | .sassign _ _ _, _, h => h
  | .cassign _ _ _, _, h => h
  | .check _ _ _, _, h => h
  | .ifThen _ _ t, env, h => ⟨h.1, h.2.1, fun v hv hb => agree_loud t env (h.2.2 v hv hb)⟩
  | .ifElse _ _ t e, env, h => ⟨h.1, h.2.1, fun v hv hb => agree_loud t env (h.2.2.1 v hv hb),
      fun v hv hb => agree_loud e env (h.2.2.2 v hv hb)⟩
  | .while _ c b, env, h => ⟨h.1, agreeLoop_loud (agree_loud b) (loud_quiet b) fuel env h.2⟩
  | .block _ b, env, h => ⟨h.1, agree_loud b _ h.2⟩
  | .init _ b, env, h => ⟨h.1, agree_loud b _ h.2⟩

theorem loud_id : ∀ (s : LStmt), s.loud.id = s.id
  | .nil | .decl _ _ | .assign _ _ _ | .sassign _ _ _ | .cassign _ _ _ | .check _ _ _ | .ifThen _ _ _
  | .ifElse _ _ _ _ | .while _ _ _ | .block _ _ | .init _ _ => rfl
  | .cons s _ => loud_id s

theorem loud_proper : ∀ (s : LStmt), s.Proper → s.loud.Proper
  | .nil, _ | .decl _ _, _ | .assign _ _ _, _ | .sassign _ _ _, _ | .cassign _ _ _, _
  | .check _ _ _, _ => trivial
  | .cons s rest, h => by
    refine ⟨?_, ?_, loud_proper s h.2.2.1, loud_proper rest h.2.2.2⟩
    · intro hs
      cases s <;> simp [LStmt.loud] at hs
      exact h.1 rfl
    · intro a b hs
      cases s <;> simp [LStmt.loud] at hs
      exact h.2.1 _ _ rfl
  | .ifThen _ _ t, h => loud_proper t h
  | .ifElse _ _ t e, h => ⟨loud_proper t h.1, loud_proper e h.2⟩
  | .while _ _ b, h => loud_proper b h
  | .block _ b, h => loud_proper b h
  | .init _ b, h => loud_proper b h

theorem choose_loud {c : LExpr} {k y n : LStmt} :
    choose A field c k.loud y.loud n.loud = (choose A field c k y n).map LStmt.loud := by
  unfold choose
  cases readComputed A c.id with
  | error e => rfl
  | ok o =>
    cases o with
    | none => rfl
    | some v =>
      simp only
      by_cases hv : asBool v field = true
      · rw [if_pos hv, if_pos hv]; rfl
      · rw [if_neg hv, if_neg hv]; rfl

/-- Filtering commutes with recording more. -/
theorem clean_loud : ∀ (s : LStmt),
    clean A field s.loud = (clean A field s).map fun x => (x.1.loud, x.2)
  | .nil => rfl
  | .decl _ _ | .assign _ _ _ | .sassign _ _ _ | .cassign _ _ _ | .check _ _ _ | .init _ _ => rfl
  | .cons s rest => by
    simp only [LStmt.loud, clean, loud_id]
    cases isReached A s.id with
    | error e => rfl
    | ok b =>
      cases b with
      | false => exact clean_loud rest
      | true =>
        simp only [clean_loud s, clean_loud rest]
        cases clean A field s with
        | error e => rfl
        | ok x =>
          cases clean A field rest with
          | error e => rfl
          | ok y =>
            obtain ⟨s', n⟩ := x
            obtain ⟨r', m⟩ := y
            simp only [Except.map]
            cases n <;> rfl
  | .ifThen i c t => by
    simp only [LStmt.loud, clean, clean_loud t]
    cases clean A field t with
    | error e => rfl
    | ok x =>
      obtain ⟨t', n⟩ := x
      simp only [Except.map]
      have := choose_loud (A := A) (field := field) (c := c) (k := .ifThen i c t') (y := t')
        (n := .block i .nil)
      simp only [LStmt.loud] at this
      rw [this]
      cases choose A field c (.ifThen i c t') t' (.block i .nil) <;> rfl
  | .ifElse i c t e => by
    simp only [LStmt.loud, clean, clean_loud t, clean_loud e]
    cases clean A field t with
    | error e => rfl
    | ok x =>
      obtain ⟨t', n⟩ := x
      cases clean A field e with
      | error e => rfl
      | ok y =>
        obtain ⟨e', m⟩ := y
        simp only [Except.map]
        cases m with
        | true =>
          simp only [if_true]
          have := choose_loud (A := A) (field := field) (c := c) (k := .ifThen i c t') (y := t')
            (n := .block i .nil)
          simp only [LStmt.loud] at this
          rw [this]
          cases choose A field c (.ifThen i c t') t' (.block i .nil) <;> rfl
        | false =>
          simp only [if_neg Bool.false_ne_true]
          have := choose_loud (A := A) (field := field) (c := c) (k := .ifElse i c t' e') (y := t')
            (n := e')
          simp only [LStmt.loud] at this
          rw [this]
          cases choose A field c (.ifElse i c t' e') t' e' <;> rfl
  | .while i c b => by
    simp only [LStmt.loud, clean, clean_loud b]
    cases clean A field b <;> rfl
  | .block i b => by
    simp only [LStmt.loud, clean, clean_loud b]
    cases clean A field b <;> rfl

theorem foldS_loud : ∀ (s : LStmt), foldS A s.loud = (foldS A s).map LStmt.loud
  | .nil => rfl
  | .decl _ _ => rfl
  | .assign _ _ e => by simp only [LStmt.loud, foldS]; cases foldE A e <;> rfl
  | .sassign _ _ e => by simp only [LStmt.loud, foldS]; cases foldE A e <;> rfl
  | .cassign _ _ e => by simp only [LStmt.loud, foldS]; cases foldE A e <;> rfl
  | .check _ l r => by
    simp only [LStmt.loud, foldS]
    cases foldE A l with
    | error e => rfl
    | ok x => cases foldE A r <;> rfl
  | .cons s rest => by
    simp only [LStmt.loud, foldS, foldS_loud s, foldS_loud rest]
    cases foldS A s with
    | error e => rfl
    | ok x => cases foldS A rest <;> rfl
  | .ifThen _ c t => by
    simp only [LStmt.loud, foldS, foldS_loud t]
    cases foldE A c with
    | error e => rfl
    | ok x => cases foldS A t <;> rfl
  | .ifElse _ c t e => by
    simp only [LStmt.loud, foldS, foldS_loud t, foldS_loud e]
    cases foldE A c with
    | error e => rfl
    | ok x =>
      cases foldS A t with
      | error e => rfl
      | ok y => cases foldS A e <;> rfl
  | .while _ c b => by
    simp only [LStmt.loud, foldS, foldS_loud b]
    cases foldE A c with
    | error e => rfl
    | ok x => cases foldS A b <;> rfl
  | .block _ b => by
    simp only [LStmt.loud, foldS, foldS_loud b]
    cases foldS A b <;> rfl
  | .init _ b => by
    simp only [LStmt.loud, foldS, foldS_loud b]
    cases foldS A b <;> rfl

theorem filterCode_loud (s : LStmt) :
    filterCode A field s.loud = (filterCode A field s).map LStmt.loud := by
  unfold filterCode
  rw [clean_loud]
  cases clean A field s with
  | error e => rfl
  | ok x => exact foldS_loud x.1

/-- On runs where the records are right the filtered code does the same, including the values
assigned. -/
theorem filterCode_all {s s' : LStmt} {env : CEnv} {r : CEnv × Trace × Option Int} (hp : s.Proper)
    (hf : filterCode A field s = .ok s') (ha : AgreeS A field w fuel s env)
    (h : runAll fuel field w s env = some r) : runAll fuel field w s' env = some r := by
  have hf' : filterCode A field s.loud = .ok s'.loud := by rw [filterCode_loud, hf]; rfl
  exact filterCode_good (loud_proper s hp) hf' (agree_loud s env ha) h

end Verif.Filters
