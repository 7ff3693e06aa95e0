import Verif.Returns
import Verif.ExecSteps

set_option linter.unusedSectionVars false
set_option linter.unusedSimpArgs false

/-!
Property C48: functions accepted by the return check always return
(`type_analysis/src/analyzers/functions_all_paths_with_return_statement.rs`).
-/

namespace Verif.Props.Returns

open Verif.Exec Verif.Returns

/-- Specification: the statement can be gone through, taking branches and numbers of iterations at
will, such that it returns (`true`) or is left at its end (`false`). -/
inductive Path : Stmt → Bool → Prop where
  | skip : Path .skip false
  | decl (x) : Path (.decl x) false
  | assign (x e) : Path (.assign x e) false
  | sassign (s e) : Path (.sassign s e) false
  | cassign (s e) : Path (.cassign s e) false
  | check (l r) : Path (.check l r) false
  | ret (e) : Path (.ret e) true
  | seqReturn {a b} : Path a true → Path (.seq a b) true
  | seq {a b r} : Path a false → Path b r → Path (.seq a b) r
  | thenBranch {c t e r} : Path t r → Path (.ifte c t e) r
  | elseBranch {c t e r} : Path e r → Path (.ifte c t (some e)) r
  | noElse {c t} : Path (.ifte c t none) false
  | loopEnd {c b} : Path (.while c b) false
  | loopReturn {c b} : Path b true → Path (.while c b) true
  | loopAgain {c b r} : Path b false → Path (.while c b) r → Path (.while c b) r
  | block {b r} : Path b r → Path (.block b) r

theorem analyse_sound {s : Stmt} {r : Bool} (hp : Path s r) (h : analyse s = true) : r = true := by
  induction hp with
  | skip | decl | assign | sassign | cassign | check => simp [analyse] at h
  | ret => rfl
  | seqReturn => rfl
  | @seq a b r _ _ iha ihb =>
    simp only [analyse, Bool.or_eq_true] at h
    rcases h with h | h
    · exact absurd (iha h) (by simp)
    · exact ihb h
  | @thenBranch c t e r _ ih =>
    cases e with
    | none => simp [analyse] at h
    | some e =>
      simp only [analyse, Bool.and_eq_true] at h
      exact ih h.2
  | elseBranch _ ih =>
    simp only [analyse, Bool.and_eq_true] at h
    exact ih h.1
  | noElse => simp [analyse] at h
  | loopEnd | loopReturn | loopAgain => simp [analyse] at h
  | block _ ih => exact ih h

theorem analyse_complete : ∀ s : Stmt, analyse s = false → Path s false
  | .skip, _ => .skip
  | .decl x, _ => .decl x
  | .assign x e, _ => .assign x e
  | .sassign s e, _ => .sassign s e
  | .cassign s e, _ => .cassign s e
  | .check l r, _ => .check l r
  | .ret e, h => by simp [analyse] at h
  | .seq a b, h => by
    simp only [analyse, Bool.or_eq_false_iff] at h
    exact .seq (analyse_complete a h.1) (analyse_complete b h.2)
  | .ifte c t none, _ => .noElse
  | .ifte c t (some e), h => by
    simp only [analyse, Bool.and_eq_false_iff] at h
    rcases h with h | h
    · exact .elseBranch (analyse_complete e h)
    · exact .thenBranch (analyse_complete t h)
  | .while c b, _ => .loopEnd
  | .block b, h => .block (analyse_complete b (by simpa [analyse] using h))

/-- **C48**: the check accepts exactly the bodies in which every way through, for any outcome of the
conditions, meets a `return`. -/
theorem C48_exact (s : Stmt) : analyse s = true ↔ ¬ Path s false := by
  constructor
  · intro h hp
    exact absurd (analyse_sound hp h) (by simp)
  · intro h
    by_contra hc
    exact h (analyse_complete s (by simpa using hc))

theorem loop_path {field : Int} {w : Nat → Int} {c : Expr} {b : Stmt}
    {f : CEnv → Option (CEnv × Trace × Option Int)}
    (hf : ∀ env env' t r, f env = some (env', t, r) → Path b r.isSome) (fuel : Nat) :
    ∀ env env' t r, cLoop field w c f fuel env = some (env', t, r) → Path (.while c b) r.isSome := by
  induction fuel with
  | zero => intro env env' t r h; simp [cLoop] at h
  | succ fuel ih =>
    intro env env' t r h
    simp only [cLoop] at h
    split at h
    · cases h
    · split at h
      · split at h
        · cases h
        · rename_i env1 t1 v hb
          injection h with h
          injection h with _ h
          injection h with _ h
          subst h
          exact .loopReturn (hf _ _ _ _ hb)
        · rename_i env1 t1 hb
          simp only [Option.map_eq_some_iff] at h
          obtain ⟨⟨x1, x2, x3⟩, hx, h⟩ := h
          injection h with _ h
          injection h with _ h
          subst h
          exact .loopAgain (hf _ _ _ _ hb) (ih _ _ _ _ hx)
      · injection h with h
        injection h with _ h
        injection h with _ h
        subst h
        exact .loopEnd

/-- Every concrete execution goes along some path. -/
theorem run_path (fuel : Nat) (field : Int) (w : Nat → Int) : ∀ (s : Stmt) (env env' : CEnv) (t : Trace)
    (r : Option Int), run fuel field w s env = some (env', t, r) → Path s r.isSome
  | .skip, env, env', t, r, h => by
    simp only [run, Option.some.injEq, Prod.mk.injEq] at h
    obtain ⟨_, _, rfl⟩ := h
    exact .skip
  | .decl x, env, env', t, r, h => by
    simp only [run, Option.map_eq_some_iff, Prod.mk.injEq] at h
    obtain ⟨_, _, _, _, rfl⟩ := h
    exact .decl x
  | .assign x e, env, env', t, r, h => by
    simp only [run] at h
    split at h
    · cases h
    · simp only [Option.map_eq_some_iff, Prod.mk.injEq] at h
      obtain ⟨_, _, _, _, rfl⟩ := h
      exact .assign x e
  | .sassign s e, env, env', t, r, h => by
    simp only [run, Option.map_eq_some_iff, Prod.mk.injEq] at h
    obtain ⟨_, _, _, _, rfl⟩ := h
    exact .sassign s e
  | .cassign s e, env, env', t, r, h => by
    simp only [run, Option.map_eq_some_iff, Prod.mk.injEq] at h
    obtain ⟨_, _, _, _, rfl⟩ := h
    exact .cassign s e
  | .check l e, env, env', t, r, h => by
    simp only [run] at h
    split at h
    · simp only [Option.some.injEq, Prod.mk.injEq] at h
      obtain ⟨_, _, rfl⟩ := h
      exact .check l e
    · cases h
  | .ret e, env, env', t, r, h => by
    simp only [run, Option.map_eq_some_iff, Prod.mk.injEq] at h
    obtain ⟨_, _, _, _, rfl⟩ := h
    exact .ret e
  | .seq a b, env, env', t, r, h => by
    simp only [run] at h
    split at h
    · cases h
    · rename_i env1 t1 v ha
      simp only [Option.some.injEq, Prod.mk.injEq] at h
      obtain ⟨_, _, rfl⟩ := h
      exact .seqReturn (run_path fuel field w a _ _ _ _ ha)
    · rename_i env1 t1 ha
      simp only [Option.map_eq_some_iff, Prod.mk.injEq] at h
      obtain ⟨⟨x1, x2, x3⟩, hx, _, _, rfl⟩ := h
      exact .seq (run_path fuel field w a _ _ _ _ ha) (run_path fuel field w b _ _ _ _ hx)
  | .ifte c s none, env, env', t, r, h => by
    simp only [run] at h
    split at h
    · cases h
    · split at h
      · exact .thenBranch (run_path fuel field w s _ _ _ _ h)
      · simp only [Option.some.injEq, Prod.mk.injEq] at h
        obtain ⟨_, _, rfl⟩ := h
        exact .noElse
  | .ifte c s (some e), env, env', t, r, h => by
    simp only [run] at h
    split at h
    · cases h
    · split at h
      · exact .thenBranch (run_path fuel field w s _ _ _ _ h)
      · exact .elseBranch (run_path fuel field w e _ _ _ _ h)
  | .while c b, env, env', t, r, h => by
    simp only [run] at h
    exact loop_path (fun _ _ _ _ h => run_path fuel field w b _ _ _ _ h) fuel _ _ _ _ h
  | .block b, env, env', t, r, h => by
    simp only [run, Option.map_eq_some_iff, Prod.mk.injEq] at h
    obtain ⟨⟨x1, x2, x3⟩, hx, _, _, rfl⟩ := h
    exact .block (run_path fuel field w b _ _ _ _ hx)

/-- **C48**: no execution of an accepted body that ends falls off its end. -/
theorem C48_returns {s : Stmt} (h : analyse s = true) {fuel : Nat} {field : Int} {w : Nat → Int}
    {env env' : CEnv} {t : Trace} {r : Option Int} (hr : run fuel field w s env = some (env', t, r)) :
    ∃ v, r = some v := by
  have := analyse_sound (run_path fuel field w s _ _ _ _ hr) h
  exact Option.isSome_iff_exists.1 this

/-- **C48**, inside the compiler: the symbolic execution of an accepted body that succeeds ends with a
value, so that the `unwrap` in `execute_function_call` (execute.rs:3372) does not abort. -/
theorem C48_symbolic (fuel : Nat) (field : Int) : ∀ (s : Stmt), analyse s = true → ∀ (st st' : St)
    (r : Option V), exec fuel field s st = .ok (st', r) → ∃ v, r = some v
  | .skip, h | .decl _, h | .assign _ _, h | .sassign _ _, h | .cassign _ _, h | .check _ _, h
  | .ifte _ _ none, h | .while _ _, h => by simp [analyse] at h
  | .ret e, _ => by
    intro st st' r hr
    simp only [exec] at hr
    split at hr
    · cases hr
    · simp only [Except.ok.injEq, Prod.mk.injEq] at hr
      exact ⟨_, hr.2.symm⟩
  | .seq a b, h => by
    intro st st' r hr
    simp only [exec] at hr
    split at hr
    · cases hr
    · simp only [Except.ok.injEq, Prod.mk.injEq] at hr
      exact ⟨_, hr.2.symm⟩
    · rename_i st1 ha
      simp only [analyse, Bool.or_eq_true] at h
      rcases h with h | h
      · obtain ⟨v, hv⟩ := C48_symbolic fuel field a h _ _ _ ha
        cases hv
      · exact C48_symbolic fuel field b h _ _ _ hr
  | .ifte c t (some e), h => by
    intro st st' r hr
    simp only [analyse, Bool.and_eq_true] at h
    simp only [exec] at hr
    split at hr
    · cases hr
    · rename_i st1 r1 cr hc
      simp only [Except.ok.injEq, Prod.mk.injEq] at hr
      obtain ⟨_, rfl⟩ := hr
      obtain ⟨vc, _, hcases⟩ := conditional_cases hc
      clear hc
      rcases hcases with ⟨_, _, h'⟩ | ⟨_, _, hn, _, _⟩ | ⟨f, _, _, hf, h'⟩ | ⟨_, _, hn, _⟩ |
        ⟨f, st1, r1, last, st2, r2, _, _, hf, h1, hl, h2, _, hr⟩
      · exact C48_symbolic fuel field t h.2 _ _ _ h'
      · cases hn
      · injection hf with hf
        subst hf
        exact C48_symbolic fuel field e h.1 _ _ _ h'
      · cases hn
      · obtain ⟨v, hv⟩ := C48_symbolic fuel field t h.2 _ _ _ h1
        rw [hr, hv]
        exact ⟨v, rfl⟩
  | .block b, h => by
    intro st st' r hr
    simp only [exec] at hr
    split at hr
    · cases hr
    · rename_i st1 r1 hb
      simp only [Except.ok.injEq, Prod.mk.injEq] at hr
      obtain ⟨_, rfl⟩ := hr
      exact C48_symbolic fuel field b (by simpa [analyse] using h) _ _ _ hb

/-- A body with declarations, a branch without `else` and returns in both branches at the end. -/
def sampleBody : Stmt :=
  .block (.seq (.decl 1) (.seq (.assign 1 (.num 3))
    (.seq (.ifte (.bin .greater (.var 1) (.num 2)) (.ret (.num 9)) none)
      (.ifte (.sig 1) (.block (.ret (.var 1))) (some (.seq (.assign 1 (.num 4)) (.ret (.num 5))))))))

/-- Non-vacuity: an accepted body, with concrete and symbolic executions that end. -/
example : analyse sampleBody = true ∧ (run 5 101 (fun _ => 0) sampleBody [[]]).isSome = true ∧
    (match exec 5 101 sampleBody (start [1]) with
      | .ok (_, r) => r.isSome
      | _ => false) = true := by decide +kernel

/-- A body refused although it always returns: the check does not look at conditions. -/
example : analyse (.while (.num 1) (.ret (.num 1))) = false ∧
    (run 5 101 (fun _ => 0) (.while (.num 1) (.ret (.num 1))) [[]]).map (fun x => x.2.2) = some (some 1) := by
  decide +kernel

end Verif.Props.Returns
