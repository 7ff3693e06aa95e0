import Verif.SugarMain

set_option linter.unusedSimpArgs false
set_option linter.unusedVariables false
set_option linter.unusedSectionVars false

namespace Verif.Sugar

variable {K : Type} {S : Sem K} {N : Nat} {mixed : Name → Bool}

/-! ## More calls succeed -/

/-- Every result of the first is one of the second. -/
def LeF (F F' : Fns K) : Prop := ∀ f vs v, F f vs = some v → F' f vs = some v

theorem checked_mono {d : List Nat} {x y : Option (Val K)} (h : ∀ v, x = some v → y = some v) (v : Val K)
    (hx : checked d x = some v) : checked d y = some v := by
  obtain ⟨h1, h2⟩ := checked_some.1 hx
  exact checked_some.2 ⟨h v h1, h2⟩

section
variable {F F' : Fns K} (hF : LeF F F') (E : Env K)
include hF

mutual
theorem eval_mono (e : Expr K) (v : Val K) (h : eval S F E e = some v) : eval S F' E e = some v := by
  match e with
  | .num _ => exact h
  | .var d x acc =>
    simp only [eval] at h ⊢
    rcases hp : path S F E acc with _ | p
    · rw [hp] at h; cases h
    · rw [hp] at h; rw [path_mono acc p hp]; exact h
  | .infix op l r =>
    simp only [eval] at h ⊢
    rcases hl : eval S F E l with _ | a
    · rw [hl] at h; cases h
    · rcases hr : eval S F E r with _ | b
      · rw [hl, hr] at h; cases a <;> cases h
      · rw [hl, hr] at h; rw [eval_mono l a hl, eval_mono r b hr]; exact h
  | .pre op e =>
    simp only [eval] at h ⊢
    rcases hl : eval S F E e with _ | a
    · rw [hl] at h; cases h
    · rw [hl] at h; rw [eval_mono e a hl]; exact h
  | .call d f args =>
    simp only [eval] at h ⊢
    rcases hl : evalL S F E args with _ | vs
    · rw [hl] at h; cases h
    · rw [hl] at h; rw [evalL_mono args vs hl]
      exact checked_mono (fun w hw => hF f vs w hw) v h
  | .switch d c a b =>
    simp only [eval] at h ⊢
    rcases hl : eval S F E c with _ | w
    · rw [hl] at h; cases h
    · rw [hl] at h; rw [eval_mono c w hl]
      rcases w with w | _ | _
      · simp only at h ⊢
        refine checked_mono (fun u hu => ?_) v h
        split at hu
        · rename_i ht; rw [if_pos ht]; exact eval_mono a u hu
        · rename_i ht; rw [if_neg ht]; exact eval_mono b u hu
      · cases h
      · cases h
  | .arr d vs =>
    simp only [eval] at h ⊢
    rcases hl : evalL S F E vs with _ | ws
    · rw [hl] at h; cases h
    · rw [hl] at h; rw [evalL_mono vs ws hl]; exact h
  | .uni d e n =>
    simp only [eval] at h ⊢
    rcases hl : eval S F E e with _ | a
    · rw [hl] at h; cases h
    · rw [hl] at h; rw [eval_mono e a hl]; exact h

theorem evalL_mono (es : List (Expr K)) (vs : List (Val K)) (h : evalL S F E es = some vs) : evalL S F' E es = some vs := by
  match es with
  | [] => exact h
  | e :: es =>
    simp only [evalL] at h ⊢
    rcases hl : eval S F E e with _ | a
    · rw [hl] at h; cases h
    · rcases hr : evalL S F E es with _ | b
      · rw [hl, hr] at h; cases h
      · rw [hl, hr] at h; rw [eval_mono e a hl, evalL_mono es b hr]; exact h

theorem path_mono (es : List (Acc K)) (vs : List Nat) (h : path S F E es = some vs) : path S F' E es = some vs := by
  match es with
  | [] => exact h
  | e :: es =>
    simp only [path] at h ⊢
    rcases hl : access S F E e with _ | a
    · rw [hl] at h; cases h
    · rcases hr : path S F E es with _ | b
      · rw [hl, hr] at h; cases h
      · rw [hl, hr] at h; rw [access_mono e a hl, path_mono es b hr]; exact h

theorem access_mono (a : Acc K) (v : Nat) (h : access S F E a = some v) : access S F' E a = some v := by
  match a with
  | .fld _ => exact h
  | .idx e =>
    simp only [access] at h ⊢
    rcases hl : eval S F E e with _ | a
    · rw [hl] at h; cases h
    · rw [hl] at h; rw [eval_mono e a hl]; exact h
end

theorem cond_mono (e : Expr K) (b : Bool) (h : cond S F E e = some b) : cond S F' E e = some b := by
  simp only [cond] at h ⊢
  rcases hl : eval S F E e with _ | a
  · rw [hl] at h; cases h
  · rw [hl] at h; rw [eval_mono hF E e a hl]; exact h
end

theorem iter_mono {c c' : Env K → Option Bool} {f f' : Env K → Option (Env K × Option (Val K))}
    (hc : ∀ E b, c E = some b → c' E = some b) (hf : ∀ E r, f E = some r → f' E = some r) :
    ∀ (k : Nat) (E : Env K) r, iter c f k E = some r → iter c' f' k E = some r
  | 0, E, r, h => h
  | k + 1, E, r, h => by
    simp only [iter] at h ⊢
    rcases hl : c E with _ | b
    · rw [hl] at h; cases h
    · rw [hl] at h; rw [hc E b hl]
      cases b
      · exact h
      · simp only at h ⊢
        rcases hr : f E with _ | ⟨E', q⟩
        · rw [hr] at h; cases h
        · rw [hr] at h; rw [hf E _ hr]
          rcases q with _ | q
          · exact iter_mono hc hf k E' r h
          · exact h

section
variable {F F' : Fns K} (hF : LeF F F')
include hF

mutual
theorem exec_mono (s : Stmt K) (E : Env K) (r : Env K × Option (Val K)) (h : exec S F N s E = some r) : exec S F' N s E = some r := by
  match s with
  | .decl _ _ => exact h
  | .assign x acc e =>
    simp only [exec] at h ⊢
    rcases hl : path S F E acc with _ | p
    · rw [hl] at h; cases h
    · rcases hr : eval S F E e with _ | b
      · rw [hl, hr] at h; cases h
      · rw [hl, hr] at h; rw [path_mono hF E acc p hl, eval_mono hF E e b hr]; exact h
  | .eqc l t =>
    simp only [exec] at h ⊢
    rcases hl : eval S F E l with _ | p
    · rw [hl] at h; cases h
    · rcases hr : eval S F E t with _ | b
      · rw [hl, hr] at h; cases h
      · rw [hl, hr] at h; rw [eval_mono hF E l p hl, eval_mono hF E t b hr]; exact h
  | .log args =>
    simp only [exec] at h ⊢
    rcases hl : evalL S F E args with _ | p
    · rw [hl] at h; cases h
    · rw [hl] at h; rw [evalL_mono hF E args p hl]; exact h
  | .assert e =>
    simp only [exec] at h ⊢
    rcases hl : cond S F E e with _ | p
    · rw [hl] at h; cases h
    · rw [hl] at h; rw [cond_mono hF E e p hl]; exact h
  | .ret e =>
    simp only [exec] at h ⊢
    rcases hl : eval S F E e with _ | p
    · rw [hl] at h; cases h
    · rw [hl] at h; rw [eval_mono hF E e p hl]; exact h
  | .ite c a b =>
    simp only [exec] at h ⊢
    rcases hl : cond S F E c with _ | p
    · rw [hl] at h; cases h
    · rw [hl] at h; rw [cond_mono hF E c p hl]
      cases p
      · exact exec_mono b E r h
      · exact exec_mono a E r h
  | .loop c s =>
    simp only [exec] at h ⊢
    exact iter_mono (fun E b h => cond_mono hF E c b h) (fun E r h => exec_mono s E r h) N E r h
  | .block ss => exact execL_mono ss E r h
  | .init ss => exact execL_mono ss E r h

theorem execL_mono (ss : List (Stmt K)) (E : Env K) (r : Env K × Option (Val K)) (h : execL S F N ss E = some r) :
    execL S F' N ss E = some r := by
  match ss with
  | [] => exact h
  | s :: ss =>
    simp only [execL] at h ⊢
    rcases hl : exec S F N s E with _ | ⟨E', q⟩
    · rw [hl] at h; cases h
    · rw [hl] at h; rw [exec_mono s E _ hl]
      rcases q with _ | q
      · exact execL_mono ss E' r h
      · exact h
end
end

/-! ## Programs -/

/-- All functions are blocks of statements that keep their meaning. -/
def tameT (T : Table K) : Prop := ∀ f xs body, T f = some (xs, body) → ∃ ss, body = .block ss ∧ tameL (fun _ => false) ss

/-- All functions evaluate everything put in front. -/
def strictT (T : Table K) : Prop := ∀ f xs body, T f = some (xs, body) → strictS (fun _ => false) body = true

theorem clean_sim (F : Fns K) (ss : List (Stmt K)) (h : tameL mixed ss) (E : Env K) :
    Sim (strictL mixed ss) (exec S F N (clean S mixed (.block ss)) E) (exec S F N (.block ss) E) := by
  simp only [clean, extS, exec]
  exact extL_good ss h 0 _ E E AgreeB.rfl'

theorem callN_sound (T : Table K) (hT : tameT T) : ∀ n, LeF (callN S (cleanT S T) n) (callN S T n)
  | 0 => fun f vs v h => by simp [callN] at h
  | n + 1 => fun f vs v h => by
    have ih := callN_sound T hT n
    simp only [callN, cleanT] at h ⊢
    rcases hf : T f with _ | ⟨xs, body⟩
    · rw [hf] at h; cases h
    · obtain ⟨ss, rfl, hs⟩ := hT f xs body hf
      rw [hf] at h
      simp only at h ⊢
      rcases he : exec S (callN S (cleanT S T) n) n (clean S (fun _ => false) (.block ss)) (bind xs vs) with _ | ⟨E', q⟩
      · rw [he] at h; cases h
      · rw [he] at h
        have h1 := exec_mono ih _ _ _ he
        obtain ⟨E1, h2, -⟩ := (clean_sim (S := S) (N := n) (callN S T n) ss hs (bind xs vs)).1 E' q h1
        rw [h2]
        cases q <;> exact h

theorem callN_complete (T : Table K) (hT : tameT T) (hS : strictT T) : ∀ n, LeF (callN S T n) (callN S (cleanT S T) n)
  | 0 => fun f vs v h => by simp [callN] at h
  | n + 1 => fun f vs v h => by
    have ih := callN_complete T hT hS n
    simp only [callN, cleanT] at h ⊢
    rcases hf : T f with _ | ⟨xs, body⟩
    · rw [hf] at h; cases h
    · obtain ⟨ss, rfl, hs⟩ := hT f xs body hf
      have hst := hS f xs _ hf
      rw [hf] at h
      simp only at h ⊢
      rcases he : exec S (callN S T n) n (.block ss) (bind xs vs) with _ | ⟨E', q⟩
      · rw [he] at h; cases h
      · rw [he] at h
        have h1 := clean_sim (S := S) (N := n) (callN S T n) ss hs (bind xs vs)
        have h2 := h1.2 hst (by rw [he]; rfl)
        obtain ⟨⟨E1, q1⟩, h3⟩ := Option.isSome_iff_exists.1 h2
        obtain ⟨E2, h4, -⟩ := h1.1 E1 q1 h3
        rw [he] at h4
        simp only [Option.some.injEq, Prod.mk.injEq] at h4
        rw [exec_mono ih _ _ _ h3, ← h4.2]
        cases q <;> exact h

end Verif.Sugar
