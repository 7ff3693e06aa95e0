import Verif.AlgebraLemmas

/-!
# Properties C11–C18: symbolic expressions, constraints, substitutions

Specification vocabulary: `ev` (value of a linear combination), `AExpr.value`, `Constraint.Holds`,
`Substitution.Holds`; `ρ default = 1` says that the constant wire carries one.
-/

set_option linter.unusedSectionVars false

namespace Verif.Props.Algebra
open Verif.Algebra
open Verif.ModArith (Res Fail)

variable {K : Type} [DecidableEq K] [Inhabited K] {p : Nat}

/-! ## C11 -/

theorem ok_bind {α β : Type} (x : α) (f : α → Res β) : (Except.ok x >>= f) = f x := rfl
theorem error_bind {α β : Type} (x : Fail) (f : α → Res β) : ((Except.error x : Res α) >>= f) = .error x := rfl

/-- Spec: `e` computes the binary field operation `op` from `l` and `r` for every assignment. -/
def Computes (p : Nat) (op : ZMod p → ZMod p → ZMod p) (l r e : AExpr K) : Prop :=
  ∀ ρ : K → ZMod p, ρ default = 1 →
    ∃ x y, l.value ρ = some x ∧ r.value ρ = some y ∧ e.value ρ = some (op x y)

theorem C11_add (hp : 0 < p) (l r : AExpr K) (hl : l.Valid p) (hr : r.Valid p) :
    ∃ e, add l r p = .ok e ∧ e.Valid p ∧ (e ≠ .nonQuadratic → Computes p (· + ·) l r e) := by
  cases l with
  | nonQuadratic => exact ⟨.nonQuadratic, by cases r <;> rfl, trivial, fun h => absurd rfl h⟩
  | number v0 =>
    cases r with
    | nonQuadratic => exact ⟨_, rfl, trivial, fun h => absurd rfl h⟩
    | number v1 =>
      refine ⟨_, rfl, trivial, fun _ ρ _ => ⟨_, _, rfl, rfl, ?_⟩⟩
      simp [AExpr.value, ModArith.add_cast _ _ _ hp]
    | signal s =>
      obtain ⟨m', h1, h2, h3, h4, _⟩ := addConst_spec hp (m := (zeroMap : CMap K)) validMap_zeroMap v0
      refine ⟨.linear (addSymbol s 1 m' p), by simp only [add, h1, ok_bind], ⟨validMap_addSymbol h2 _ _ _, canon_addSymbol hp (h3 (canon_zeroMap hp)) _ _⟩,
        fun _ ρ hρ => ⟨_, _, rfl, rfl, ?_⟩⟩
      simp [AExpr.value, ev_addSymbol hp, h4 ρ hρ, ev_zeroMap]
    | linear m =>
      obtain ⟨m', h1, h2, h3, h4, _⟩ := addConst_spec hp hr.1 v0
      refine ⟨.linear m', by simp only [add, h1, ok_bind], ⟨h2, h3 hr.2⟩, fun _ ρ hρ => ⟨_, _, rfl, rfl, ?_⟩⟩
      simp [AExpr.value, h4 ρ hρ, add_comm]
    | quadratic a b c =>
      obtain ⟨m', h1, h2, h3, h4, _⟩ := addConst_spec hp hr.2.2.1 v0
      refine ⟨.quadratic a b m', by simp only [add, h1, ok_bind], ⟨hr.1, hr.2.1, h2, h3 hr.2.2.2⟩, fun _ ρ hρ => ⟨_, _, rfl, rfl, ?_⟩⟩
      simp only [AExpr.value, h4 ρ hρ]; congr 1; ring
  | signal s =>
    cases r with
    | nonQuadratic => exact ⟨_, rfl, trivial, fun h => absurd rfl h⟩
    | number v1 =>
      obtain ⟨m', h1, h2, h3, h4, _⟩ := addConst_spec hp (m := (zeroMap : CMap K)) validMap_zeroMap v1
      refine ⟨.linear (addSymbol s 1 m' p), by simp only [add, h1, ok_bind], ⟨validMap_addSymbol h2 _ _ _, canon_addSymbol hp (h3 (canon_zeroMap hp)) _ _⟩,
        fun _ ρ hρ => ⟨_, _, rfl, rfl, ?_⟩⟩
      simp [AExpr.value, ev_addSymbol hp, h4 ρ hρ, ev_zeroMap, add_comm]
    | signal s1 =>
      refine ⟨_, rfl, ⟨validMap_addSymbol (validMap_addSymbol validMap_zeroMap _ _ _) _ _ _,
        canon_addSymbol hp (canon_addSymbol hp (canon_zeroMap hp) _ _) _ _⟩, fun _ ρ _ => ⟨_, _, rfl, rfl, ?_⟩⟩
      simp [AExpr.value, ev_addSymbol hp, ev_zeroMap]
    | linear m =>
      refine ⟨_, rfl, ⟨validMap_addSymbol hr.1 _ _ _, canon_addSymbol hp hr.2 _ _⟩,
        fun _ ρ _ => ⟨_, _, rfl, rfl, ?_⟩⟩
      simp [AExpr.value, ev_addSymbol hp, add_comm]
    | quadratic a b c =>
      refine ⟨_, rfl, ⟨hr.1, hr.2.1, validMap_addSymbol hr.2.2.1 _ _ _, canon_addSymbol hp hr.2.2.2 _ _⟩,
        fun _ ρ _ => ⟨_, _, rfl, rfl, ?_⟩⟩
      simp only [AExpr.value, ev_addSymbol hp]; congr 1; push_cast; ring
  | linear m0 =>
    cases r with
    | nonQuadratic => exact ⟨_, rfl, trivial, fun h => absurd rfl h⟩
    | number v1 =>
      obtain ⟨m', h1, h2, h3, h4, _⟩ := addConst_spec hp hl.1 v1
      refine ⟨.linear m', by simp only [add, h1, ok_bind], ⟨h2, h3 hl.2⟩, fun _ ρ hρ => ⟨_, _, rfl, rfl, ?_⟩⟩
      simp [AExpr.value, h4 ρ hρ]
    | signal s =>
      refine ⟨_, rfl, ⟨validMap_addSymbol hl.1 _ _ _, canon_addSymbol hp hl.2 _ _⟩,
        fun _ ρ _ => ⟨_, _, rfl, rfl, ?_⟩⟩
      simp [AExpr.value, ev_addSymbol hp]
    | linear m =>
      refine ⟨_, rfl, ⟨validMap_addCoefs _ hr.1 _, canon_addCoefs hp _ hr.2⟩, fun _ ρ _ => ⟨_, _, rfl, rfl, ?_⟩⟩
      simp [AExpr.value, ev_addCoefs hp]
    | quadratic a b c =>
      refine ⟨_, rfl, ⟨hr.1, hr.2.1, validMap_addCoefs _ hr.2.2.1 _, canon_addCoefs hp _ hr.2.2.2⟩,
        fun _ ρ _ => ⟨_, _, rfl, rfl, ?_⟩⟩
      simp only [AExpr.value, ev_addCoefs hp]; congr 1; ring
  | quadratic a b c =>
    cases r with
    | nonQuadratic => exact ⟨_, rfl, trivial, fun h => absurd rfl h⟩
    | number v1 =>
      obtain ⟨m', h1, h2, h3, h4, _⟩ := addConst_spec hp hl.2.2.1 v1
      refine ⟨.quadratic a b m', by simp only [add, h1, ok_bind], ⟨hl.1, hl.2.1, h2, h3 hl.2.2.2⟩, fun _ ρ hρ => ⟨_, _, rfl, rfl, ?_⟩⟩
      simp only [AExpr.value, h4 ρ hρ]; congr 1; ring
    | signal s =>
      refine ⟨_, rfl, ⟨hl.1, hl.2.1, validMap_addSymbol hl.2.2.1 _ _ _, canon_addSymbol hp hl.2.2.2 _ _⟩,
        fun _ ρ _ => ⟨_, _, rfl, rfl, ?_⟩⟩
      simp only [AExpr.value, ev_addSymbol hp]; congr 1; push_cast; ring
    | linear m =>
      refine ⟨_, rfl, ⟨hl.1, hl.2.1, validMap_addCoefs _ hl.2.2.1 _, canon_addCoefs hp _ hl.2.2.2⟩,
        fun _ ρ _ => ⟨_, _, rfl, rfl, ?_⟩⟩
      simp only [AExpr.value, ev_addCoefs hp]; congr 1; ring
    | quadratic a' b' c' => exact ⟨_, rfl, trivial, fun h => absurd rfl h⟩

theorem C11_mul (hp : 0 < p) (l r : AExpr K) (hl : l.Valid p) (hr : r.Valid p) :
    (mul l r p).Valid p ∧ (mul l r p ≠ .nonQuadratic → Computes p (· * ·) l r (mul l r p)) := by
  have z := validMap_zeroMap (K := K)
  have cz := canon_zeroMap (K := K) hp
  cases l with
  | nonQuadratic => exact ⟨by cases r <;> trivial, fun h => absurd (by cases r <;> rfl) h⟩
  | number v0 =>
    cases r with
    | nonQuadratic => exact ⟨trivial, fun h => absurd rfl h⟩
    | number v1 =>
      refine ⟨trivial, fun _ ρ _ => ⟨_, _, rfl, rfl, ?_⟩⟩
      simp [AExpr.value, mul, ModArith.mul_cast _ _ _ hp]
    | signal s =>
      refine ⟨⟨validMap_addSymbol z _ _ _, canon_addSymbol hp cz _ _⟩, fun _ ρ _ => ⟨_, _, rfl, rfl, ?_⟩⟩
      simp [AExpr.value, mul, ev_addSymbol hp, ev_zeroMap]
    | linear m =>
      refine ⟨⟨validMap_mulCoefs hr.1 _ _, canon_mulCoefs hp _ _⟩, fun _ ρ _ => ⟨_, _, rfl, rfl, ?_⟩⟩
      simp [AExpr.value, mul, ev_mulCoefs hp]
    | quadratic a b c =>
      refine ⟨⟨⟨validMap_mulCoefs hr.1.1 _ _, canon_mulCoefs hp _ _⟩, hr.2.1, validMap_mulCoefs hr.2.2.1 _ _,
        canon_mulCoefs hp _ _⟩, fun _ ρ _ => ⟨_, _, rfl, rfl, ?_⟩⟩
      simp only [AExpr.value, mul, ev_mulCoefs hp]; congr 1; ring
  | signal s =>
    cases r with
    | nonQuadratic => exact ⟨trivial, fun h => absurd rfl h⟩
    | number v1 =>
      refine ⟨⟨validMap_addSymbol z _ _ _, canon_addSymbol hp cz _ _⟩, fun _ ρ _ => ⟨_, _, rfl, rfl, ?_⟩⟩
      simp [AExpr.value, mul, ev_addSymbol hp, ev_zeroMap, mul_comm]
    | signal s1 =>
      refine ⟨⟨⟨validMap_addSymbol z _ _ _, canon_addSymbol hp cz _ _⟩, ⟨validMap_addSymbol z _ _ _,
        canon_addSymbol hp cz _ _⟩, z, cz⟩, fun _ ρ _ => ⟨_, _, rfl, rfl, ?_⟩⟩
      simp [AExpr.value, mul, ev_addSymbol hp, ev_zeroMap]
    | linear m =>
      refine ⟨⟨hr, ⟨validMap_addSymbol z _ _ _, canon_addSymbol hp cz _ _⟩, z, cz⟩,
        fun _ ρ _ => ⟨_, _, rfl, rfl, ?_⟩⟩
      simp [AExpr.value, mul, ev_addSymbol hp, ev_zeroMap, mul_comm]
    | quadratic a b c => exact ⟨trivial, fun h => absurd rfl h⟩
  | linear m0 =>
    cases r with
    | nonQuadratic => exact ⟨trivial, fun h => absurd rfl h⟩
    | number v1 =>
      refine ⟨⟨validMap_mulCoefs hl.1 _ _, canon_mulCoefs hp _ _⟩, fun _ ρ _ => ⟨_, _, rfl, rfl, ?_⟩⟩
      simp [AExpr.value, mul, ev_mulCoefs hp, mul_comm]
    | signal s =>
      refine ⟨⟨hl, ⟨validMap_addSymbol z _ _ _, canon_addSymbol hp cz _ _⟩, z, cz⟩,
        fun _ ρ _ => ⟨_, _, rfl, rfl, ?_⟩⟩
      simp [AExpr.value, mul, ev_addSymbol hp, ev_zeroMap]
    | linear m =>
      refine ⟨⟨hl, hr, z, cz⟩, fun _ ρ _ => ⟨_, _, rfl, rfl, ?_⟩⟩
      simp [AExpr.value, mul, ev_zeroMap]
    | quadratic a b c => exact ⟨trivial, fun h => absurd rfl h⟩
  | quadratic a b c =>
    cases r with
    | number v1 =>
      refine ⟨⟨⟨validMap_mulCoefs hl.1.1 _ _, canon_mulCoefs hp _ _⟩, hl.2.1, validMap_mulCoefs hl.2.2.1 _ _,
        canon_mulCoefs hp _ _⟩, fun _ ρ _ => ⟨_, _, rfl, rfl, ?_⟩⟩
      simp only [AExpr.value, mul, ev_mulCoefs hp]; congr 1; ring
    | _ => exact ⟨trivial, fun h => absurd rfl h⟩

theorem C11_sub (hp : 0 < p) (l r : AExpr K) (hl : l.Valid p) (hr : r.Valid p) :
    ∃ e, sub l r p = .ok e ∧ e.Valid p ∧ (e ≠ .nonQuadratic → Computes p (· - ·) l r e) := by
  obtain ⟨h1, h2⟩ := C11_mul hp (.number (-1)) r trivial hr
  obtain ⟨e, h3, h4, h5⟩ := C11_add hp l _ hl h1
  refine ⟨e, h3, h4, fun he ρ hρ => ?_⟩
  have hne : mul (.number (-1)) r p ≠ .nonQuadratic := by
    intro h
    rw [h] at h3
    have : add l .nonQuadratic (p : Int) = .ok .nonQuadratic := by cases l <;> rfl
    rw [this] at h3
    injection h3 with h3
    exact he h3.symm
  obtain ⟨x, y, hx, hy, hxy⟩ := h5 he ρ hρ
  obtain ⟨m, y', hm, hy', hmy⟩ := h2 hne ρ hρ
  refine ⟨x, y', hx, hy', ?_⟩
  rw [hxy]
  rw [hmy] at hy
  have hm' : m = -1 := by simpa [AExpr.value] using hm.symm
  injection hy with hy
  rw [← hy, hm']; congr 1; ring

theorem C11_neg (hp : 0 < p) (e : AExpr K) (he : e.Valid p) :
    (prefixSub e p).Valid p ∧ (prefixSub e p ≠ .nonQuadratic →
      ∀ ρ : K → ZMod p, ρ default = 1 → ∃ x, e.value ρ = some x ∧ (prefixSub e p).value ρ = some (-x)) := by
  obtain ⟨h1, h2⟩ := C11_mul hp e (.number (-1)) he trivial
  refine ⟨h1, fun hne ρ hρ => ?_⟩
  obtain ⟨x, m, hx, hm, hxm⟩ := h2 hne ρ hρ
  have hm' : m = -1 := by simpa [AExpr.value] using hm.symm
  refine ⟨x, hx, ?_⟩
  have : (prefixSub e p).value ρ = some (x * m) := hxm
  rw [this, hm']; congr 1; ring

theorem divCoefs_error {c : Int} {m : CMap K} {e : Fail} (h : divCoefs c m p = .error e) :
    e = .divisionByZero ∧ ¬ IsUnit (c : ZMod p) := by
  unfold divCoefs at h
  split at h
  · rename_i e' he'
    injection h with h
    subst h
    unfold ModArith.div at he'
    split at he'
    · injection he' with he'
      refine ⟨he'.symm, ?_⟩
      rename_i hn
      intro hu
      have := (ModArith.modInverse_isSome_iff c p).2 ((ModArith.gcd_eq_one_iff_isUnit c p).2 hu)
      rw [hn] at this; simp at this
    · cases he'
  · cases h

/-- Division: a non-marker result is the field quotient for every assignment; the only failure is the error value for
a constant divisor that is not invertible. -/
theorem C11_div (hp : 0 < p) (l r : AExpr K) (hl : l.Valid p) :
    (∀ e, div l r p = .ok e → e.Valid p ∧ (e ≠ .nonQuadratic →
      ∀ ρ : K → ZMod p, ρ default = 1 →
        ∃ x y z, l.value ρ = some x ∧ r.value ρ = some y ∧ e.value ρ = some z ∧ z * y = x)) ∧
    (∀ err, div l r p = .error err → err = .divisionByZero ∧ ∃ v : Int, r = .number v ∧ ¬ IsUnit (v : ZMod p)) := by
  have z := validMap_zeroMap (K := K)
  cases r with
  | number v =>
    cases l with
    | nonQuadratic =>
      refine ⟨fun e h => ?_, fun err h => by simp [div] at h⟩
      simp only [div] at h; injection h with h; subst h; exact ⟨trivial, fun h => absurd rfl h⟩
    | number v0 =>
      cases hd : ModArith.div v0 v (p : Int) with
      | error err0 =>
        refine ⟨fun e h => ?_, fun err h => ?_⟩
        · simp only [div, hd, error_bind] at h; cases h
        · simp only [div, hd, error_bind] at h
          injection h with h; subst h
          have hu : ¬ IsUnit (v : ZMod p) := by
            intro hu
            have := (ModArith.modInverse_isSome_iff v p).2 ((ModArith.gcd_eq_one_iff_isUnit v p).2 hu)
            obtain ⟨i, hi⟩ := Option.isSome_iff_exists.1 this
            simp [ModArith.div, hi] at hd
          refine ⟨?_, v, rfl, hu⟩
          unfold ModArith.div at hd
          split at hd
          · injection hd with hd; exact hd.symm
          · cases hd
      | ok q =>
        refine ⟨fun e h => ?_, fun err h => by simp only [div, hd, ok_bind] at h; cases h⟩
        simp only [div, hd, ok_bind] at h
        injection h with h; subst h
        exact ⟨trivial, fun _ ρ _ => ⟨_, _, _, rfl, rfl, rfl, ModArith.div_ok_cast hp hd⟩⟩
    | signal s =>
      cases hd : divCoefs v (addSymbol s 1 zeroMap p) (p : Int) with
      | error err0 =>
        refine ⟨fun e h => ?_, fun err h => ?_⟩
        · simp only [div, hd, error_bind] at h; cases h
        · simp only [div, hd, error_bind] at h
          injection h with h; subst h
          exact ⟨(divCoefs_error hd).1, v, rfl, (divCoefs_error hd).2⟩
      | ok m =>
        obtain ⟨h1, h2, h3⟩ := divCoefs_ok hp hd
        refine ⟨fun e h => ?_, fun err h => by simp only [div, hd, ok_bind] at h; cases h⟩
        simp only [div, hd, ok_bind] at h
        injection h with h; subst h
        have hv := validMap_addSymbol z s 1 p
        refine ⟨⟨⟨by unfold CMap.WF; rw [h2]; exact hv.1, contains_of_keys (fun _ hk => by rw [h2]; exact hk) hv.2⟩, h3⟩,
          fun _ ρ _ => ⟨_, _, _, rfl, rfl, rfl, ?_⟩⟩
        rw [h1 ρ, ev_addSymbol hp, ev_zeroMap]; simp
    | linear m0 =>
      cases hd : divCoefs v m0 (p : Int) with
      | error err0 =>
        refine ⟨fun e h => ?_, fun err h => ?_⟩
        · simp only [div, hd, error_bind] at h; cases h
        · simp only [div, hd, error_bind] at h
          injection h with h; subst h
          exact ⟨(divCoefs_error hd).1, v, rfl, (divCoefs_error hd).2⟩
      | ok m =>
        obtain ⟨h1, h2, h3⟩ := divCoefs_ok hp hd
        refine ⟨fun e h => ?_, fun err h => by simp only [div, hd, ok_bind] at h; cases h⟩
        simp only [div, hd, ok_bind] at h
        injection h with h; subst h
        refine ⟨⟨⟨by unfold CMap.WF; rw [h2]; exact hl.1.1,
          contains_of_keys (fun _ hk => by rw [h2]; exact hk) hl.1.2⟩, h3⟩,
          fun _ ρ _ => ⟨_, _, _, rfl, rfl, rfl, ?_⟩⟩
        exact h1 ρ
    | quadratic a b c =>
      cases hd : divCoefs v a (p : Int) with
      | error err0 =>
        refine ⟨fun e h => ?_, fun err h => ?_⟩
        · simp only [div, hd, error_bind] at h; cases h
        · simp only [div, hd, error_bind] at h
          injection h with h; subst h
          exact ⟨(divCoefs_error hd).1, v, rfl, (divCoefs_error hd).2⟩
      | ok a' =>
        cases hd2 : divCoefs v c (p : Int) with
        | error err0 =>
          refine ⟨fun e h => ?_, fun err h => ?_⟩
          · simp only [div, hd, hd2, error_bind, ok_bind] at h; cases h
          · simp only [div, hd, hd2, error_bind, ok_bind] at h
            injection h with h; subst h
            exact ⟨(divCoefs_error hd2).1, v, rfl, (divCoefs_error hd2).2⟩
        | ok c' =>
          obtain ⟨h1, h2, h3⟩ := divCoefs_ok hp hd
          obtain ⟨g1, g2, g3⟩ := divCoefs_ok hp hd2
          refine ⟨fun e h => ?_, fun err h => by simp only [div, hd, hd2, ok_bind] at h; cases h⟩
          simp only [div, hd, hd2, ok_bind] at h
          injection h with h; subst h
          refine ⟨⟨⟨⟨by unfold CMap.WF; rw [h2]; exact hl.1.1.1,
              contains_of_keys (fun _ hk => by rw [h2]; exact hk) hl.1.1.2⟩, h3⟩, hl.2.1,
              ⟨by unfold CMap.WF; rw [g2]; exact hl.2.2.1.1,
              contains_of_keys (fun _ hk => by rw [g2]; exact hk) hl.2.2.1.2⟩, g3⟩,
            fun _ ρ _ => ⟨_, _, _, rfl, rfl, rfl, ?_⟩⟩
          calc (ev ρ a' * ev ρ b + ev ρ c') * (v : ZMod p)
              = (ev ρ a' * v) * ev ρ b + ev ρ c' * v := by ring
            _ = ev ρ a * ev ρ b + ev ρ c := by rw [h1 ρ, g1 ρ]
  | _ =>
    refine ⟨fun e h => ?_, fun err h => by cases l <;> simp [div] at h⟩
    have : e = .nonQuadratic := by cases l <;> (simp only [div] at h; injection h with h; exact h.symm)
    subst this
    exact ⟨trivial, fun h => absurd rfl h⟩

/-- Exponentiation: a non-marker result is the power, for every assignment; the exponent is a literal number. -/
theorem C11_pow (hp : 0 < p) (l r : AExpr K) (hl : l.Valid p) (e : AExpr K) (h : pow l r p = .ok e) :
    e.Valid p ∧ (e ≠ .nonQuadratic → ∃ n : Nat, r = .number n ∧
      ∀ ρ : K → ZMod p, ρ default = 1 → ∃ x, l.value ρ = some x ∧ e.value ρ = some (x ^ n)) := by
  cases r with
  | number v =>
    cases l with
    | number v0 =>
      simp only [pow] at h
      by_cases hv : v < 0
      · simp [ModArith.pow, hv, error_bind] at h
      · simp only [ModArith.pow, hv, if_false, ok_bind] at h
        injection h with h; subst h
        refine ⟨trivial, fun _ => ⟨v.toNat, by rw [Int.toNat_of_nonneg (by omega)], fun ρ _ => ⟨_, rfl, ?_⟩⟩⟩
        have := (ZMod.intCast_eq_intCast_iff _ _ _).2 (ModArith.modpow_modEq v0 v.toNat p)
        simp only [AExpr.value]
        rw [this]; push_cast; rfl
    | signal s =>
      simp only [pow] at h
      split at h
      · rename_i hv; subst hv
        injection h with h
        obtain ⟨h1, h2⟩ := C11_mul hp (.signal s) (.signal s) (K := K) trivial trivial
        rw [h] at h1 h2
        refine ⟨h1, fun hne => ⟨2, rfl, fun ρ hρ => ?_⟩⟩
        obtain ⟨x, y, hx, hy, hxy⟩ := h2 hne ρ hρ
        have : x = y := by rw [hx] at hy; injection hy
        exact ⟨x, hx, by rw [hxy, ← this, sq]⟩
      · injection h with h; subst h; exact ⟨trivial, fun h => absurd rfl h⟩
    | linear m =>
      simp only [pow] at h
      split at h
      · rename_i hv; subst hv
        injection h with h
        obtain ⟨h1, h2⟩ := C11_mul hp (.linear m) (.linear m) hl hl
        rw [h] at h1 h2
        refine ⟨h1, fun hne => ⟨2, rfl, fun ρ hρ => ?_⟩⟩
        obtain ⟨x, y, hx, hy, hxy⟩ := h2 hne ρ hρ
        have : x = y := by rw [hx] at hy; injection hy
        exact ⟨x, hx, by rw [hxy, ← this, sq]⟩
      · injection h with h; subst h; exact ⟨trivial, fun h => absurd rfl h⟩
    | quadratic a b c => simp only [pow] at h; injection h with h; subst h; exact ⟨trivial, fun h => absurd rfl h⟩
    | nonQuadratic => simp only [pow] at h; injection h with h; subst h; exact ⟨trivial, fun h => absurd rfl h⟩
  | _ =>
    have : e = .nonQuadratic := by cases l <;> (simp only [pow] at h; injection h with h; exact h.symm)
    subst this
    exact ⟨trivial, fun h => absurd rfl h⟩

/-- `==` on symbolic expressions: a non-marker result is the truth value of equality under every assignment. -/
theorem C11_eq (hp : 0 < p) (l r : AExpr K) (h : numOp ModArith.eq l r p ≠ .nonQuadratic) (ρ : K → ZMod p) :
    ∃ x y, l.value ρ = some x ∧ r.value ρ = some y ∧
      (numOp ModArith.eq l r p).value ρ = some (if x = y then 1 else 0) := by
  cases l <;> cases r <;> simp only [numOp, ne_eq, not_true_eq_false] at h
  rename_i a b
  refine ⟨_, _, rfl, rfl, ?_⟩
  have hp' : (0 : Int) < p := by exact_mod_cast hp
  simp only [numOp, AExpr.value, ModArith.eq]
  congr 1
  have : (ModArith.modulus a p = ModArith.modulus b p) ↔ ((a : ZMod p) = (b : ZMod p)) := by
    rw [ModArith.modulus_eq_emod _ hp', ModArith.modulus_eq_emod _ hp', ZMod.intCast_eq_intCast_iff]
    rfl
  by_cases hab : (a : ZMod p) = (b : ZMod p)
  · rw [if_pos hab, if_pos (this.2 hab)]; simp
  · rw [if_neg hab, if_neg (fun h => hab (this.1 h))]; simp

/-- Spec: arithmetic source expressions over literals and signals. -/
inductive Src (K : Type) where
  | num (v : Nat)
  | sig (k : K)
  | add (l r : Src K)
  | sub (l r : Src K)
  | mul (l r : Src K)
  | div (l r : Src K)
  | pow (l : Src K) (n : Nat)
  | neg (e : Src K)

/-- Spec: denotation in the field; division is by invertible values only. -/
inductive Src.Den (ρ : K → ZMod p) : Src K → ZMod p → Prop
  | num (v : Nat) : Src.Den ρ (.num v) (v : ZMod p)
  | sig (k : K) : Src.Den ρ (.sig k) (ρ k)
  | add {l r x y} : Src.Den ρ l x → Src.Den ρ r y → Src.Den ρ (.add l r) (x + y)
  | sub {l r x y} : Src.Den ρ l x → Src.Den ρ r y → Src.Den ρ (.sub l r) (x - y)
  | mul {l r x y} : Src.Den ρ l x → Src.Den ρ r y → Src.Den ρ (.mul l r) (x * y)
  | div {l r x y} (z) : Src.Den ρ l x → Src.Den ρ r y → z * y = x → Src.Den ρ (.div l r) z
  | pow {l x} (n : Nat) : Src.Den ρ l x → Src.Den ρ (.pow l n) (x ^ n)
  | neg {e x} : Src.Den ρ e x → Src.Den ρ (.neg e) (-x)

/-- Symbolic evaluation of a whole source expression, operand by operand, as `execute_expression` does
(execute.rs: `Number` and `Variable` leaves, `execute_infix_op`, `execute_prefix_op`). -/
def Src.symbolic (field : Int) : Src K → Res (AExpr K)
  | .num v => .ok (.number v)
  | .sig k => .ok (.signal k)
  | .add l r => do Algebra.add (← l.symbolic field) (← r.symbolic field) field
  | .sub l r => do Algebra.sub (← l.symbolic field) (← r.symbolic field) field
  | .mul l r => do .ok (Algebra.mul (← l.symbolic field) (← r.symbolic field) field)
  | .div l r => do Algebra.div (← l.symbolic field) (← r.symbolic field) field
  | .pow l n => do Algebra.pow (← l.symbolic field) (.number n) field
  | .neg e => do .ok (Algebra.prefixSub (← e.symbolic field) field)

theorem bind_ok_iff {α β : Type} (x : Res α) (f : α → Res β) (b : β) :
    (x >>= f) = .ok b ↔ ∃ a, x = .ok a ∧ f a = .ok b := by
  cases x with
  | error e => constructor
               · intro h; cases h
               · rintro ⟨a, h, _⟩; cases h
  | ok a => constructor
            · intro h; exact ⟨a, rfl, h⟩
            · rintro ⟨a', h, h'⟩; injection h with h; subst h; exact h'

theorem bind_error_iff {α β : Type} (x : Res α) (f : α → Res β) (e : Fail) :
    (x >>= f) = .error e ↔ x = .error e ∨ ∃ a, x = .ok a ∧ f a = .error e := by
  cases x with
  | error e' => constructor
                · intro h; injection h with h; subst h; exact Or.inl rfl
                · rintro (h | ⟨a, h, _⟩)
                  · injection h with h; subst h; rfl
                  · cases h
  | ok a => constructor
            · intro h; exact Or.inr ⟨a, rfl, h⟩
            · rintro (h | ⟨a', h, h'⟩)
              · cases h
              · injection h with h; subst h; exact h'

theorem Computes.ne_left {op : ZMod p → ZMod p → ZMod p} {l r e : AExpr K} (h : Computes p op l r e) :
    l ≠ .nonQuadratic ∧ r ≠ .nonQuadratic := by
  classical
  obtain ⟨x, y, hx, hy, _⟩ := h (fun _ => 1) rfl
  exact ⟨by rintro rfl; simp [AExpr.value] at hx, by rintro rfl; simp [AExpr.value] at hy⟩

/-- Whole expressions: whatever symbolic evaluation returns other than the marker is the denotation, for every
assignment; it never aborts, the only error is division by a non-invertible constant. -/
theorem C11_tree (hp : 0 < p) (t : Src K) :
    (∀ e, t.symbolic p = .ok e → e.Valid p ∧ (e ≠ .nonQuadratic →
      ∀ ρ : K → ZMod p, ρ default = 1 → ∃ x, e.value ρ = some x ∧ t.Den ρ x)) ∧
    (∀ err, t.symbolic p = .error err → err = .divisionByZero) := by
  induction t with
  | num v =>
    refine ⟨fun e h => ?_, fun err h => by cases h⟩
    injection h with h; subst h
    exact ⟨trivial, fun _ ρ _ => ⟨_, rfl, by simpa using Src.Den.num v⟩⟩
  | sig k =>
    refine ⟨fun e h => ?_, fun err h => by cases h⟩
    injection h with h; subst h
    exact ⟨trivial, fun _ ρ _ => ⟨_, rfl, Src.Den.sig k⟩⟩
  | add l r ihl ihr =>
    refine ⟨fun e h => ?_, fun err h => ?_⟩
    · simp only [Src.symbolic, bind_ok_iff] at h
      obtain ⟨el, hl, er, hr, h⟩ := h
      obtain ⟨vl, dl⟩ := ihl.1 el hl
      obtain ⟨vr, dr⟩ := ihr.1 er hr
      obtain ⟨e', h1, h2, h3⟩ := C11_add hp el er vl vr
      rw [h1] at h; injection h with h; subst h
      refine ⟨h2, fun hne ρ hρ => ?_⟩
      obtain ⟨nl, nr⟩ := (h3 hne).ne_left
      obtain ⟨x, y, hx, hy, hxy⟩ := h3 hne ρ hρ
      obtain ⟨x', hx', Dx⟩ := dl nl ρ hρ
      obtain ⟨y', hy', Dy⟩ := dr nr ρ hρ
      rw [hx] at hx'; injection hx' with hx'; subst hx'
      rw [hy] at hy'; injection hy' with hy'; subst hy'
      exact ⟨_, hxy, .add Dx Dy⟩
    · simp only [Src.symbolic, bind_error_iff] at h
      rcases h with h | ⟨el, hl, h | ⟨er, hr, h⟩⟩
      · exact ihl.2 err h
      · exact ihr.2 err h
      · obtain ⟨e', h1, _⟩ := C11_add hp el er (ihl.1 el hl).1 (ihr.1 er hr).1
        rw [h1] at h; cases h
  | sub l r ihl ihr =>
    refine ⟨fun e h => ?_, fun err h => ?_⟩
    · simp only [Src.symbolic, bind_ok_iff] at h
      obtain ⟨el, hl, er, hr, h⟩ := h
      obtain ⟨vl, dl⟩ := ihl.1 el hl
      obtain ⟨vr, dr⟩ := ihr.1 er hr
      obtain ⟨e', h1, h2, h3⟩ := C11_sub hp el er vl vr
      rw [h1] at h; injection h with h; subst h
      refine ⟨h2, fun hne ρ hρ => ?_⟩
      obtain ⟨nl, nr⟩ := (h3 hne).ne_left
      obtain ⟨x, y, hx, hy, hxy⟩ := h3 hne ρ hρ
      obtain ⟨x', hx', Dx⟩ := dl nl ρ hρ
      obtain ⟨y', hy', Dy⟩ := dr nr ρ hρ
      rw [hx] at hx'; injection hx' with hx'; subst hx'
      rw [hy] at hy'; injection hy' with hy'; subst hy'
      exact ⟨_, hxy, .sub Dx Dy⟩
    · simp only [Src.symbolic, bind_error_iff] at h
      rcases h with h | ⟨el, hl, h | ⟨er, hr, h⟩⟩
      · exact ihl.2 err h
      · exact ihr.2 err h
      · obtain ⟨e', h1, _⟩ := C11_sub hp el er (ihl.1 el hl).1 (ihr.1 er hr).1
        rw [h1] at h; cases h
  | mul l r ihl ihr =>
    refine ⟨fun e h => ?_, fun err h => ?_⟩
    · simp only [Src.symbolic, bind_ok_iff] at h
      obtain ⟨el, hl, er, hr, h⟩ := h
      obtain ⟨vl, dl⟩ := ihl.1 el hl
      obtain ⟨vr, dr⟩ := ihr.1 er hr
      obtain ⟨h2, h3⟩ := C11_mul hp el er vl vr
      injection h with h; subst h
      refine ⟨h2, fun hne ρ hρ => ?_⟩
      obtain ⟨nl, nr⟩ := (h3 hne).ne_left
      obtain ⟨x, y, hx, hy, hxy⟩ := h3 hne ρ hρ
      obtain ⟨x', hx', Dx⟩ := dl nl ρ hρ
      obtain ⟨y', hy', Dy⟩ := dr nr ρ hρ
      rw [hx] at hx'; injection hx' with hx'; subst hx'
      rw [hy] at hy'; injection hy' with hy'; subst hy'
      exact ⟨_, hxy, .mul Dx Dy⟩
    · simp only [Src.symbolic, bind_error_iff] at h
      rcases h with h | ⟨el, hl, h | ⟨er, hr, h⟩⟩
      · exact ihl.2 err h
      · exact ihr.2 err h
      · cases h
  | div l r ihl ihr =>
    refine ⟨fun e h => ?_, fun err h => ?_⟩
    · simp only [Src.symbolic, bind_ok_iff] at h
      obtain ⟨el, hl, er, hr, h⟩ := h
      obtain ⟨vl, dl⟩ := ihl.1 el hl
      obtain ⟨vr, dr⟩ := ihr.1 er hr
      obtain ⟨h2, h3⟩ := (C11_div hp el er vl).1 e h
      refine ⟨h2, fun hne ρ hρ => ?_⟩
      obtain ⟨x, y, z, hx, hy, hz, hzy⟩ := h3 hne ρ hρ
      have nl : el ≠ .nonQuadratic := by rintro rfl; simp [AExpr.value] at hx
      have nr : er ≠ .nonQuadratic := by rintro rfl; simp [AExpr.value] at hy
      obtain ⟨x', hx', Dx⟩ := dl nl ρ hρ
      obtain ⟨y', hy', Dy⟩ := dr nr ρ hρ
      rw [hx] at hx'; injection hx' with hx'; subst hx'
      rw [hy] at hy'; injection hy' with hy'; subst hy'
      exact ⟨_, hz, .div z Dx Dy hzy⟩
    · simp only [Src.symbolic, bind_error_iff] at h
      rcases h with h | ⟨el, hl, h | ⟨er, hr, h⟩⟩
      · exact ihl.2 err h
      · exact ihr.2 err h
      · exact ((C11_div hp el er (ihl.1 el hl).1).2 err h).1
  | pow l n ihl =>
    refine ⟨fun e h => ?_, fun err h => ?_⟩
    · simp only [Src.symbolic, bind_ok_iff] at h
      obtain ⟨el, hl, h⟩ := h
      obtain ⟨vl, dl⟩ := ihl.1 el hl
      obtain ⟨h2, h3⟩ := C11_pow hp el (.number n) vl e h
      refine ⟨h2, fun hne ρ hρ => ?_⟩
      obtain ⟨n', hn', h4⟩ := h3 hne
      have : n = n' := by injection hn' with hn'; exact_mod_cast hn'
      subst this
      obtain ⟨x, hx, hz⟩ := h4 ρ hρ
      have nl : el ≠ .nonQuadratic := by rintro rfl; simp [AExpr.value] at hx
      obtain ⟨x', hx', Dx⟩ := dl nl ρ hρ
      rw [hx] at hx'; injection hx' with hx'; subst hx'
      exact ⟨_, hz, .pow n Dx⟩
    · simp only [Src.symbolic, bind_error_iff] at h
      rcases h with h | ⟨el, hl, h⟩
      · exact ihl.2 err h
      · exfalso
        cases el <;> simp [Algebra.pow, ModArith.pow] at h <;> split at h <;> first | omega | cases h
  | neg l ihl =>
    refine ⟨fun e h => ?_, fun err h => ?_⟩
    · simp only [Src.symbolic, bind_ok_iff] at h
      obtain ⟨el, hl, h⟩ := h
      obtain ⟨vl, dl⟩ := ihl.1 el hl
      obtain ⟨h2, h3⟩ := C11_neg hp el vl
      injection h with h; subst h
      refine ⟨h2, fun hne ρ hρ => ?_⟩
      obtain ⟨x, hx, hz⟩ := h3 hne ρ hρ
      have nl : el ≠ .nonQuadratic := by rintro rfl; simp [AExpr.value] at hx
      obtain ⟨x', hx', Dx⟩ := dl nl ρ hρ
      rw [hx] at hx'; injection hx' with hx'; subst hx'
      exact ⟨_, hz, .neg Dx⟩
    · simp only [Src.symbolic, bind_error_iff] at h
      rcases h with h | ⟨el, hl, h⟩
      · exact ihl.2 err h
      · cases h

example : (Src.sub (.mul (.sig "x") (.add (.sig "y") (.num 2))) (.pow (.num 3) 2) : Src String).symbolic 257 =
    .ok (.quadratic [("", 2), ("y", 1)] [("", 0), ("x", 1)] [("", 248)]) := by decide

/-- Case meeting the hypotheses: `(2*x + 3) * y` over `String` signals in the field with 257 elements. -/
example : (AExpr.linear [("", 3), ("x", 2)] : AExpr String).Valid 257 ∧
    mul (.linear [("", 3), ("x", 2)]) (.signal "y") 257 =
      .quadratic [("", 3), ("x", 2)] [("", 0), ("y", 1)] [("", 0)] ∧
    add (.linear [("", 3), ("x", 2)]) (.linear [("x", 255), ("", 1)] : AExpr String) 257 =
      .ok (.linear [("x", 0), ("", 4)]) := by
  refine ⟨⟨⟨?_, ?_⟩, ?_⟩, ?_, ?_⟩
  · unfold CMap.WF; decide
  · decide
  · unfold CanonMap; decide
  · decide
  · decide

/-! ## C12 -/

theorem C12_add_boundary (hp : 0 < p) (l r : AExpr K) (hl : l.Valid p) (hr : r.Valid p) :
    add l r p = .ok .nonQuadratic ↔
      l = .nonQuadratic ∨ r = .nonQuadratic ∨ (∃ a b c, l = .quadratic a b c) ∧ (∃ a b c, r = .quadratic a b c) := by
  have hz := addConst_spec hp (m := (zeroMap : CMap K)) validMap_zeroMap
  cases l <;> cases r <;> simp [add]
  · obtain ⟨m', h1, _⟩ := hz ‹Int›; simp [h1, ok_bind]
  · obtain ⟨m', h1, _⟩ := addConst_spec hp hr.1 ‹Int›; simp [h1, ok_bind]
  · obtain ⟨m', h1, _⟩ := addConst_spec hp hr.2.2.1 ‹Int›; simp [h1, ok_bind]
  · obtain ⟨m', h1, _⟩ := hz ‹Int›; simp [h1, ok_bind]
  · obtain ⟨m', h1, _⟩ := addConst_spec hp hl.1 ‹Int›; simp [h1, ok_bind]
  · obtain ⟨m', h1, _⟩ := addConst_spec hp hl.2.2.1 ‹Int›; simp [h1, ok_bind]

theorem C12_mul_boundary (f : Int) (l r : AExpr K) :
    mul l r f = .nonQuadratic ↔
      l = .nonQuadratic ∨ r = .nonQuadratic ∨
      (∃ a b c, l = .quadratic a b c) ∧ (¬ ∃ v, r = .number v) ∨
      (∃ a b c, r = .quadratic a b c) ∧ (¬ ∃ v, l = .number v) := by
  cases l <;> cases r <;> simp [mul]

theorem C12_sub_boundary (hp : 0 < p) (l r : AExpr K) (hl : l.Valid p) (hr : r.Valid p) :
    sub l r p = .ok .nonQuadratic ↔
      l = .nonQuadratic ∨ r = .nonQuadratic ∨ (∃ a b c, l = .quadratic a b c) ∧ (∃ a b c, r = .quadratic a b c) := by
  have h1 := (C11_mul hp (.number (-1)) r trivial hr).1
  unfold sub
  rw [C12_add_boundary hp l _ hl h1]
  cases r <;> simp [mul]

/-- Numbers are always folded, for every operator that cannot fail. -/
theorem C12_numbers_fold (v w f : Int) :
    (∃ z, add (.number v : AExpr K) (.number w) f = .ok (.number z)) ∧
    (∃ z, mul (.number v : AExpr K) (.number w) f = .number z) ∧
    (∃ z, sub (.number v : AExpr K) (.number w) f = .ok (.number z)) ∧
    (∃ z, prefixSub (.number v : AExpr K) f = .number z) :=
  ⟨⟨_, rfl⟩, ⟨_, rfl⟩, ⟨_, rfl⟩, ⟨_, rfl⟩⟩

example : mul (.signal "x" : AExpr String) (.signal "y") 257 ≠ .nonQuadratic ∧
    mul (mul (.signal "x" : AExpr String) (.signal "y") 257) (.signal "z") 257 = .nonQuadratic ∧
    mul (mul (.signal "x" : AExpr String) (.signal "y") 257) (.number 0) 257 ≠ .nonQuadratic := by decide

/-! ## C13 -/

theorem toConstraint_holds (hp : 0 < p) (e : AExpr K) (k : Constraint K) (h : toConstraint e p = some k)
    (ρ : K → ZMod p) (hρ : ρ default = 1) (hs : ∀ s, e = .signal s → s ≠ default) :
    ∃ x, e.value ρ = some x ∧ (k.Holds ρ ↔ x = 0) := by
  cases e with
  | nonQuadratic => simp [toConstraint] at h
  | number v =>
    simp only [toConstraint, Option.some.injEq] at h; subst h
    refine ⟨_, rfl, ?_⟩
    simp only [Constraint.Holds, ev_zeroMap, ev_mulCoefs hp, ev_insert]
    have : (zeroMap : CMap K).get default = some 0 := by
      unfold zeroMap; rw [get_initConst]; simp [CMap.get]
    rw [this, hρ]; simp
  | signal s =>
    simp only [toConstraint, Option.some.injEq] at h; subst h
    refine ⟨_, rfl, ?_⟩
    simp only [Constraint.Holds, ev_zeroMap, ev_mulCoefs hp, ev_insert]
    have : (zeroMap : CMap K).get s = none := by
      unfold zeroMap; rw [get_initConst]; simp [CMap.get, hs s rfl]
    rw [this]; simp
  | linear m =>
    simp only [toConstraint, Option.some.injEq] at h; subst h
    refine ⟨_, rfl, ?_⟩
    simp [Constraint.Holds, ev_zeroMap, ev_mulCoefs hp]
  | quadratic a b c =>
    simp only [toConstraint, Option.some.injEq] at h; subst h
    refine ⟨_, rfl, ?_⟩
    simp only [Constraint.Holds, ev_mulCoefs hp]
    constructor
    · intro h; rw [h]; push_cast; ring
    · intro h
      have : ev ρ a * ev ρ b = -ev ρ c := eq_neg_of_add_eq_zero_left h
      rw [this]; push_cast; ring

theorem add_not_signal (l r : AExpr K) (f : Int) (s : K) : add l r f ≠ .ok (.signal s) := by
  cases l <;> cases r <;> simp only [add] <;> intro h <;>
    first
      | cases h
      | (revert h
         generalize (addConst _ _ _ : Res (CMap K)) = q
         cases q <;> simp [ok_bind, error_bind])

/-- The constraint generated for `l === r` (`sub`, then `transform_expression_to_constraint_form`, as in
`execute.rs`) exists unless the difference is non-quadratic, and holds exactly when both sides evaluate equally. -/
theorem C13_equality_constraint (hp : 0 < p) (l r : AExpr K) (hl : l.Valid p) (hr : r.Valid p) :
    ∃ d, sub l r p = .ok d ∧
      (toConstraint d p = none ↔ d = .nonQuadratic) ∧
      ∀ k, toConstraint d p = some k → ∀ ρ : K → ZMod p, ρ default = 1 →
        ∃ x y, l.value ρ = some x ∧ r.value ρ = some y ∧ (k.Holds ρ ↔ x = y) := by
  obtain ⟨d, h1, h2, h3⟩ := C11_sub hp l r hl hr
  refine ⟨d, h1, ?_, ?_⟩
  · cases d <;> simp [toConstraint]
  · intro k hk ρ hρ
    have hne : d ≠ .nonQuadratic := by rintro rfl; simp [toConstraint] at hk
    obtain ⟨x, y, hx, hy, hd⟩ := h3 hne ρ hρ
    have hs : ∀ s, d = .signal s → s ≠ default := by
      rintro s rfl
      exact absurd h1 (add_not_signal _ _ _ _)
    obtain ⟨w, hw, hiff⟩ := toConstraint_holds hp d k hk ρ hρ hs
    rw [hd] at hw
    injection hw with hw
    refine ⟨x, y, hx, hy, ?_⟩
    rw [hiff, ← hw]
    exact sub_eq_zero

example : ∃ k, (sub (.signal "z" : AExpr String) (.quadratic [("", 0), ("x", 1)] [("", 0), ("y", 1)] [("", 0)]) 257).toOption.bind
    (fun d => toConstraint d 257) = some k ∧ k.a = [("", 0), ("x", 256)] := ⟨_, rfl, by decide⟩

/-! ## C14 -/

/-- Value after substituting equals the value before in the assignment where the signal is overwritten by the
right-hand side: for every assignment, no side condition on it. -/
theorem C14_value (hp : 0 < p) (m : CMap K) (hw : m.WF) (s : Substitution K) (hs : s.frm ≠ default)
    (ρ : K → ZMod p) : ev ρ (rawSubstitution m s p) = ev (Function.update ρ s.frm (ev ρ s.rhs)) m := by
  rw [ev_rawSubstitution hp ρ hw, ev_update ρ hw, get_initConst]
  simp [hs]

/-- Substituting in a constraint. -/
theorem C14_constraint (hp : 0 < p) (k : Constraint K) (ha : k.a.WF) (hb : k.b.WF) (hc : k.c.WF)
    (s : Substitution K) (hs : s.frm ≠ default) (ρ : K → ZMod p) :
    ((k.applySubstitution s p).Holds ρ ↔ k.Holds (Function.update ρ s.frm (ev ρ s.rhs))) ∧
    (s.Holds ρ → ((k.applySubstitution s p).Holds ρ ↔ k.Holds ρ)) := by
  have h1 : (k.applySubstitution s p).Holds ρ ↔ k.Holds (Function.update ρ s.frm (ev ρ s.rhs)) := by
    unfold Constraint.Holds Constraint.applySubstitution
    rw [C14_value hp _ ha s hs, C14_value hp _ hb s hs, C14_value hp _ hc s hs]
  refine ⟨h1, fun h => ?_⟩
  have : Function.update ρ s.frm (ev ρ s.rhs) = ρ := by rw [← h]; exact Function.update_eq_self _ _
  rw [h1, this]

/-- Substituting in another substitution. -/
theorem C14_substitution (hp : 0 < p) (t s : Substitution K) (ht : t.rhs.WF) (hs : s.frm ≠ default)
    (ρ : K → ZMod p) (h : s.Holds ρ) : (t.applySubstitution s p).Holds ρ ↔ t.Holds ρ := by
  unfold Substitution.Holds Substitution.applySubstitution
  rw [C14_value hp _ ht s hs]
  have : Function.update ρ s.frm (ev ρ s.rhs) = ρ := by
    unfold Substitution.Holds at h; rw [← h]; exact Function.update_eq_self _ _
  rw [this]

/-- Substituting in a symbolic expression. -/
theorem C14_expression (hp : 0 < p) (e : AExpr K) (he : e.Valid p) (s : Substitution K) (hs : s.frm ≠ default)
    (ρ : K → ZMod p) (h : s.Holds ρ) : (e.applySubstitution s p).value ρ = e.value ρ := by
  have hu : Function.update ρ s.frm (ev ρ s.rhs) = ρ := by
    unfold Substitution.Holds at h; rw [← h]; exact Function.update_eq_self _ _
  cases e with
  | linear m => simp [AExpr.applySubstitution, AExpr.value, ev_removeZeros, C14_value hp _ he.1.1 s hs, hu]
  | signal k =>
    simp only [AExpr.applySubstitution]
    split
    · rename_i hk; subst hk; simp only [AExpr.value]; rw [← h]
    · rfl
  | quadratic a b c =>
    simp [AExpr.applySubstitution, AExpr.value, ev_removeZeros, C14_value hp _ he.1.1.1 s hs,
      C14_value hp _ he.2.1.1.1 s hs, C14_value hp _ he.2.2.1.1 s hs, hu]
  | _ => rfl

/-- Afterwards the signal is gone and nothing but the right-hand side's signals was added. -/
theorem C14_removed (k : Constraint K) (s : Substitution K) (f : Int) (hs : s.frm ≠ default)
    (hns : s.frm ∉ s.rhs.keys) :
    ¬ (k.applySubstitution s f).Occurs s.frm ∧
    ∀ x, (k.applySubstitution s f).Occurs x → x = default ∨ k.Occurs x ∨ x ∈ s.rhs.keys := by
  unfold Constraint.Occurs Constraint.applySubstitution
  simp only [mem_keys_rawSubstitution]
  constructor
  · rintro (h | h | h) <;> (split at h <;> simp_all)
  · rintro x (h | h | h) <;> (split at h <;> tauto)

/-- What `Substitution::new` accepts: never the marker nor a quadratic; a linear right-hand side never mentions the
signal; the meaning is `from = expression`. -/
theorem C14_new (s : K) (e : AExpr K) (t : Substitution K) (h : Substitution.new s e = some t) :
    t.frm = s ∧ (∀ ρ : K → ZMod p, ρ default = 1 → e.value ρ = some (ev ρ t.rhs)) ∧
    (s ≠ default → e ≠ .signal s → s ∉ t.rhs.keys) := by
  cases e with
  | number v =>
    simp only [Substitution.new, Option.some.injEq] at h; subst h
    refine ⟨rfl, fun ρ hρ => ?_, fun hs _ => by simpa [CMap.keys] using hs⟩
    simp [AExpr.value, ev_cons, ev_nil, hρ]
  | signal k =>
    simp only [Substitution.new, Option.some.injEq] at h; subst h
    refine ⟨rfl, fun ρ hρ => ?_, fun _ hne => ?_⟩
    · simp [AExpr.value, ev_cons, ev_nil]
    · simp only [CMap.keys, List.map_cons, List.map_nil, List.mem_singleton]
      rintro rfl; exact hne rfl
  | linear m =>
    simp only [Substitution.new] at h
    split at h
    · cases h
    · rename_i hc
      injection h with h; subst h
      exact ⟨rfl, fun ρ _ => rfl, fun _ _ hm => hc ((CMap.contains_iff _ _).2 hm)⟩
  | quadratic a b c => simp [Substitution.new] at h
  | nonQuadratic => simp [Substitution.new] at h

/-- Turning a substitution back into a constraint. -/
theorem C14_into_constraint (hp : 1 < p) (s : Substitution K) (hs : s.frm ≠ default) (hns : s.frm ∉ s.rhs.keys)
    (ρ : K → ZMod p) : (s.intoConstraint p).Holds ρ ↔ s.Holds ρ := by
  have hp0 : 0 < p := by omega
  unfold Constraint.Holds Substitution.intoConstraint Substitution.Holds
  simp only [ev_zeroMap, ev_mulCoefs hp0, ev_insert, ev_initConst, get_initConst]
  have h1 : (-1 : Int).tmod p = -1 := by
    have : (-1 : Int).tmod p = -((1 : Int).tmod p) := Int.neg_tmod _ _
    rw [this, Int.tmod_eq_of_lt (by decide) (by exact_mod_cast hp)]
  have h2 : s.rhs.get s.frm = none := (CMap.get_eq_none_iff _ _).2 hns
  rw [h1, h2]
  simp only [hs, false_and, if_false, Option.getD_none, Int.cast_neg, Int.cast_one, Int.cast_zero, sub_zero]
  constructor
  · intro h
    have : -1 * (ev ρ s.rhs + -1 * ρ s.frm) = 0 := by rw [← h]; ring
    linear_combination this
  · intro h; rw [h]; ring

example : let s : Substitution Nat := ⟨1, [(2, 2), (0, 3)]⟩
    let k : Constraint Nat := ⟨[], [], [(1, 1), (2, 1), (0, 4)]⟩
    s.frm ≠ default ∧ s.frm ∉ s.rhs.keys ∧ k.c.WF ∧
    (k.applySubstitution s 257).c = [(2, 3), (0, 7)] := by
  refine ⟨by decide, by decide, ?_, by decide⟩
  unfold CMap.WF; decide

/-! ## C15 -/

theorem ev_constantExpression (ρ : K → ZMod p) (hρ : ρ default = 1) {m : CMap K}
    (h : isConstantExpression m = true) : ∃ v, m.get default = some v ∧ ev ρ m = (v : ZMod p) := by
  unfold isConstantExpression at h
  simp only [Bool.and_eq_true, decide_eq_true_eq] at h
  obtain ⟨h1, h2⟩ := h
  match m, h2 with
  | [(k, v)], _ =>
    have : k = default := by
      have := (CMap.contains_iff _ _).1 h1
      simpa [CMap.keys, eq_comm] using this
    subst this
    exact ⟨v, by simp [CMap.get], by simp [ev_cons, ev_nil, hρ]⟩

theorem constantReduction_spec (hp : 0 < p) (a b c : CMap K) (hc : c.WF) (hcc : CanonMap p c)
    (h : isConstantExpression a = true) :
    ∃ c', constantReduction a b c p = .ok c' ∧ c'.WF ∧ CanonMap p c' ∧ NoZero c' ∧
      (∀ k ∈ c'.keys, k = default ∨ k ∈ b.keys ∨ k ∈ c.keys) ∧
      ∀ ρ : K → ZMod p, ρ default = 1 → ev ρ c' = ev ρ c - ev ρ a * ev ρ b := by
  unfold constantReduction
  have hget : ∃ v, a.get default = some v := by
    obtain ⟨v, hv, _⟩ := ev_constantExpression (p := p) (fun _ => 1) rfl h
    exact ⟨v, hv⟩
  obtain ⟨v, hv⟩ := hget
  simp only [hv]
  refine ⟨_, rfl, wf_removeZeros (wf_addCoefs _ (wf_initConst hc) _),
    canon_removeZeros (canon_addCoefs hp _ (canon_initConst hp hcc)), noZero_removeZeros _, ?_, ?_⟩
  · intro k hk
    have := keys_removeZeros_sub hk
    rw [mem_keys_addCoefs, keys_mulCoefs, keys_mulCoefs, mem_keys_initConst, mem_keys_initConst] at this
    tauto
  · intro ρ hρ
    obtain ⟨v', hv', he⟩ := ev_constantExpression ρ hρ h
    rw [hv] at hv'; injection hv' with hv'; subst hv'
    rw [ev_removeZeros, ev_addCoefs hp, ev_mulCoefs hp, ev_mulCoefs hp, ev_initConst, ev_initConst, he]
    push_cast; ring

/-- Spec: a cleaned constraint. -/
structure Clean (p : Nat) (k : Constraint K) : Prop where
  wa : k.a.WF
  wb : k.b.WF
  wc : k.c.WF
  ca : CanonMap p k.a
  cb : CanonMap p k.b
  cc : CanonMap p k.c
  za : NoZero k.a
  zb : NoZero k.b
  zc : NoZero k.c

/-- Cleaning a constraint: never aborts, same satisfying assignments, cleaned result, no new signals; the result is
linear or both factors mention a signal. -/
theorem C15_fix (hp : 0 < p) (k : Constraint K) (ha : k.a.WF) (hb : k.b.WF) (hc : k.c.WF)
    (ca : CanonMap p k.a) (cb : CanonMap p k.b) (cc : CanonMap p k.c) :
    ∃ k', k.fix p = .ok k' ∧ Clean p k' ∧
      (∀ ρ : K → ZMod p, ρ default = 1 → (k'.Holds ρ ↔ k.Holds ρ)) ∧
      (∀ s, k'.Occurs s → s = default ∨ k.Occurs s) ∧
      (k'.a = [] ∧ k'.b = [] ∨ (∃ s ∈ k'.a.keys, s ≠ default) ∧ (∃ s ∈ k'.b.keys, s ≠ default)) := by
  have zn : NoZero ([] : CMap K) := fun e he => by simp at he
  have cn : CanonMap p ([] : CMap K) := fun e he => by simp at he
  have hnc : ∀ m : CMap K, m.WF → m ≠ [] → isConstantExpression m = false → ∃ s ∈ m.keys, s ≠ default := by
    intro m hw hne hc
    by_contra hcon
    have hall : ∀ s ∈ m.keys, s = default := fun s hs => by
      by_contra h; exact hcon ⟨s, hs, h⟩
    match m, hne with
    | [e], _ =>
      have h1 : e.1 = default := hall e.1 (by simp)
      have : isConstantExpression [e] = true := by
        obtain ⟨k, v⟩ := e
        simp only at h1; subst h1
        simp [isConstantExpression, CMap.contains, CMap.get]
      rw [this] at hc; cases hc
    | e :: e' :: m, _ =>
      have h1 := hall e.1 (by simp)
      have h2 := hall e'.1 (by simp)
      have := (CMap.wf_cons.1 hw).1
      simp [h1, h2] at this
  unfold Constraint.fix
  simp only []
  split
  · rename_i h
    refine ⟨_, rfl, ⟨CMap.wf_nil, CMap.wf_nil, wf_removeZeros hc, cn, cn, canon_removeZeros cc, zn, zn,
      noZero_removeZeros _⟩, ?_, ?_, Or.inl ⟨rfl, rfl⟩⟩
    · intro ρ _
      simp only [Constraint.Holds, ev_nil, ev_removeZeros, mul_zero]
      have : ev ρ k.a * ev ρ k.b = 0 := by
        rcases Bool.or_eq_true_iff.1 h with h | h
        · have h' : removeZeros k.a = [] := List.isEmpty_iff.1 h
          rw [← ev_removeZeros ρ k.a, h', ev_nil, zero_mul]
        · have h' : removeZeros k.b = [] := List.isEmpty_iff.1 h
          rw [← ev_removeZeros ρ k.b, h', ev_nil, mul_zero]
      rw [this]
    · rintro s (h | h | h)
      · simp at h
      · simp at h
      · exact Or.inr (Or.inr (Or.inr (keys_removeZeros_sub h)))
  · rename_i h
    have hane : removeZeros k.a ≠ [] := fun h' => h (by simp [h'])
    have hbne : removeZeros k.b ≠ [] := fun h' => h (by simp [h'])
    split
    · rename_i h1
      obtain ⟨c', e1, e2, e3, e4, e5, e6⟩ := constantReduction_spec hp _ (removeZeros k.b) (removeZeros k.c)
        (wf_removeZeros hc) (canon_removeZeros cc) h1
      simp only [e1, ok_bind]
      refine ⟨_, rfl, ⟨CMap.wf_nil, CMap.wf_nil, e2, cn, cn, e3, zn, zn, e4⟩, ?_, ?_, Or.inl ⟨rfl, rfl⟩⟩
      · intro ρ hρ
        simp only [Constraint.Holds, ev_nil, mul_zero, e6 ρ hρ, ev_removeZeros]
        constructor
        · intro h; linear_combination h
        · intro h; linear_combination h
      · rintro s (h | h | h)
        · simp at h
        · simp at h
        · rcases e5 s h with h | h | h
          · exact Or.inl h
          · exact Or.inr (Or.inr (Or.inl (keys_removeZeros_sub h)))
          · exact Or.inr (Or.inr (Or.inr (keys_removeZeros_sub h)))
    · rename_i h1
      split
      · rename_i h2
        obtain ⟨c', e1, e2, e3, e4, e5, e6⟩ := constantReduction_spec hp _ (removeZeros k.a) (removeZeros k.c)
          (wf_removeZeros hc) (canon_removeZeros cc) h2
        simp only [e1, ok_bind]
        refine ⟨_, rfl, ⟨CMap.wf_nil, CMap.wf_nil, e2, cn, cn, e3, zn, zn, e4⟩, ?_, ?_, Or.inl ⟨rfl, rfl⟩⟩
        · intro ρ hρ
          simp only [Constraint.Holds, ev_nil, mul_zero, e6 ρ hρ, ev_removeZeros]
          constructor
          · intro h; linear_combination h
          · intro h; linear_combination h
        · rintro s (h | h | h)
          · simp at h
          · simp at h
          · rcases e5 s h with h | h | h
            · exact Or.inl h
            · exact Or.inr (Or.inl (keys_removeZeros_sub h))
            · exact Or.inr (Or.inr (Or.inr (keys_removeZeros_sub h)))
      · rename_i h2
        refine ⟨_, rfl, ⟨wf_removeZeros ha, wf_removeZeros hb, wf_removeZeros hc, canon_removeZeros ca,
          canon_removeZeros cb, canon_removeZeros cc, noZero_removeZeros _, noZero_removeZeros _,
          noZero_removeZeros _⟩, ?_, ?_, Or.inr ⟨?_, ?_⟩⟩
        · intro ρ _; simp [Constraint.Holds, ev_removeZeros]
        · rintro s (h | h | h)
          · exact Or.inr (Or.inl (keys_removeZeros_sub h))
          · exact Or.inr (Or.inr (Or.inl (keys_removeZeros_sub h)))
          · exact Or.inr (Or.inr (Or.inr (keys_removeZeros_sub h)))
        · exact hnc _ (wf_removeZeros ha) hane (by simpa using h1)
        · exact hnc _ (wf_removeZeros hb) hbne (by simpa using h2)

/-- If the cleaned constraint is empty (and will be dropped), every assignment satisfies the original. -/
theorem C15_empty (hp : 0 < p) (k k' : Constraint K) (ha : k.a.WF) (hb : k.b.WF) (hc : k.c.WF)
    (ca : CanonMap p k.a) (cb : CanonMap p k.b) (cc : CanonMap p k.c) (h : k.fix p = .ok k')
    (he : k'.isEmpty = true) (ρ : K → ZMod p) (hρ : ρ default = 1) : k.Holds ρ := by
  obtain ⟨k'', h1, _, h3, _⟩ := C15_fix hp k ha hb hc ca cb cc
  rw [h1] at h; injection h with h; subst h
  rw [← h3 ρ hρ]
  unfold Constraint.isEmpty at he
  simp only [Bool.and_eq_true, List.isEmpty_iff] at he
  simp [Constraint.Holds, he.1.1, he.1.2, he.2, ev_nil]

example : (⟨[(0, 2), (1, 0)], [(1, 1), (2, 3)], [(1, 2), (2, 5)]⟩ : Constraint Nat).fix 257 =
    .ok ⟨[], [], [(2, 256)]⟩ := by decide

/-! ## C16 -/

theorem canonical_ne_zero_isUnit (hp : p.Prime) {v : Int} (h0 : 0 ≤ v) (h1 : v < p) (hv : v ≠ 0) :
    IsUnit (v : ZMod p) :=
  (ModArith.isUnit_iff_ne_zero_of_prime v p hp).2 (by rw [Int.emod_eq_of_lt h0 h1]; exact hv)

theorem cast_ne_zero_of_canonical {v : Int} (h0 : 0 ≤ v) (h1 : v < p) (hv : v ≠ 0) : (v : ZMod p) ≠ 0 := by
  intro h
  rw [ZMod.intCast_zmod_eq_zero_iff_dvd] at h
  exact hv (Int.eq_zero_of_dvd_of_nonneg_of_lt h0 h1 h) 

/-- Normalised form: `s = e` has exactly the solutions of the constraint; `s` is gone from `e`. -/
theorem C16_clear_signal (hp : p.Prime) (k : Constraint K) (hl : k.isLinear = true) (hw : k.c.WF)
    (hcan : CanonMap p k.c) (hz : NoZero k.c) (s : K) (hs : s ∈ k.c.keys) (hsd : s ≠ default) :
    ∃ t, k.clearSignalFromLinear s p = .ok t ∧ t.frm = s ∧ s ∉ t.rhs.keys ∧
      (∀ x ∈ t.rhs.keys, x ∈ k.c.keys) ∧ t.rhs.WF ∧ CanonMap p t.rhs ∧ NoZero t.rhs ∧
      ∀ ρ : K → ZMod p, k.Holds ρ ↔ t.Holds ρ := by
  have hp0 := hp.pos
  obtain ⟨v, hv⟩ := Option.isSome_iff_exists.1 ((CMap.get_isSome_iff _ _).2 hs)
  have hvm := CMap.get_mem hv
  have hv0 : v ≠ 0 := hz _ hvm
  obtain ⟨r0, r1⟩ := hcan _ hvm
  have hcast : (v : ZMod p) ≠ 0 := cast_ne_zero_of_canonical r0 r1 hv0
  have hunit : IsUnit (v : ZMod p) := canonical_ne_zero_isUnit hp r0 r1 hv0
  have hunit' : IsUnit ((ModArith.mul v (-1) p : Int) : ZMod p) := by
    rw [ModArith.mul_cast _ _ _ hp0]; push_cast; simpa using hunit
  have hinv := (ModArith.modInverse_isSome_iff (ModArith.mul v (-1) p) p).2
    ((ModArith.gcd_eq_one_iff_isUnit _ p).2 hunit')
  obtain ⟨i, hi⟩ := Option.isSome_iff_exists.1 hinv
  have hd : divCoefs (ModArith.mul v (-1) p) (initConst (k.c.remove s)) (p : Int) =
      .ok (mulCoefs (ModArith.mul 1 i p) (initConst (k.c.remove s)) p) := by
    simp [divCoefs, ModArith.div, hi]
  obtain ⟨d1, d2, d3⟩ := divCoefs_ok hp0 hd
  refine ⟨⟨s, removeZeros (mulCoefs (ModArith.mul 1 i p) (initConst (k.c.remove s)) p)⟩, ?_, rfl, ?_, ?_, ?_, ?_, ?_, ?_⟩
  · simp [Constraint.clearSignalFromLinear, clearSignal, hv, hv0, hd, ok_bind]
  · intro h
    have := keys_removeZeros_sub h
    rw [keys_mulCoefs, mem_keys_initConst, CMap.mem_keys_remove] at this
    tauto
  · intro x hx
    by_cases hxd : x = default
    · subst hxd
      -- the constant key survives cleaning only with a non-zero coefficient, so it was in the constraint
      obtain ⟨e, he, hek⟩ := List.mem_map.1 hx
      obtain ⟨he1, he2⟩ := mem_removeZeros.1 he
      obtain ⟨e0, he0, rfl⟩ := List.mem_map.1 he1
      simp only at hek he2
      by_contra hcon
      have hnone : (k.c.remove s).get default = none := by
        rw [CMap.get_eq_none_iff, CMap.mem_keys_remove]; tauto
      have hg : (initConst (k.c.remove s)).get default = some 0 := by rw [get_initConst]; simp [hnone]
      have hwf : (initConst (k.c.remove s)).WF := wf_initConst (CMap.wf_remove hw _)
      have hg' : (initConst (k.c.remove s)).get e0.1 = some e0.2 := CMap.get_of_mem hwf he0
      rw [hek, hg] at hg'
      injection hg' with hg'
      apply he2
      rw [← hg']
      simp [ModArith.mul, ModArith.modulus_eq_emod _ (show (0 : Int) < p by exact_mod_cast hp0)]
    · have := keys_removeZeros_sub hx
      rw [keys_mulCoefs, mem_keys_initConst, CMap.mem_keys_remove] at this
      tauto
  · exact wf_removeZeros (wf_mulCoefs (wf_initConst (CMap.wf_remove hw _)) _ _)
  · exact canon_removeZeros (canon_mulCoefs hp0 _ _)
  · exact noZero_removeZeros _
  · intro ρ
    have hab : k.a = [] ∧ k.b = [] := by
      unfold Constraint.isLinear at hl
      simpa [List.isEmpty_iff] using hl
    have h1 := d1 ρ
    rw [ModArith.mul_cast _ _ _ hp0, ev_initConst, ev_remove ρ hw, hv] at h1
    unfold Constraint.Holds Substitution.Holds
    rw [hab.1, hab.2, ev_nil, ev_removeZeros]
    simp only [Option.getD_some] at h1
    push_cast at h1
    have : Fact p.Prime := ⟨hp⟩
    constructor
    · intro h
      have h2 : (v : ZMod p) * ev ρ (mulCoefs (ModArith.mul 1 i p) (initConst (k.c.remove s)) p)
          = (v : ZMod p) * ρ s := by
        linear_combination (-1 : ZMod p) * h1 + h
      exact (mul_left_cancel₀ hcast h2).symm
    · intro h
      change ρ s = _ at h
      rw [← h] at h1
      linear_combination h1

/-- Non-normalised form: `coef * s = rest`. -/
theorem C16_clear_signal_nn (hp : 0 < p) (k : Constraint K) (hl : k.isLinear = true) (hw : k.c.WF)
    (hcan : CanonMap p k.c) (hz : NoZero k.c) (s : K) (hs : s ∈ k.c.keys) (hsd : s ≠ default) :
    ∃ co t, k.clearSignalFromLinearNN s p = .ok (co, t) ∧ t.frm = s ∧ s ∉ t.rhs.keys ∧
      (co : ZMod p) ≠ 0 ∧ t.rhs.WF ∧ CanonMap p t.rhs ∧
      ∀ ρ : K → ZMod p, k.Holds ρ ↔ (co : ZMod p) * ρ s = ev ρ t.rhs := by
  obtain ⟨v, hv⟩ := Option.isSome_iff_exists.1 ((CMap.get_isSome_iff _ _).2 hs)
  have hvm := CMap.get_mem hv
  have hv0 : v ≠ 0 := hz _ hvm
  obtain ⟨r0, r1⟩ := hcan _ hvm
  have hcast : (v : ZMod p) ≠ 0 := cast_ne_zero_of_canonical r0 r1 hv0
  refine ⟨ModArith.mul v (-1) p, ⟨s, initConst (k.c.remove s)⟩, ?_, rfl, ?_, ?_, ?_, ?_, ?_⟩
  · simp [Constraint.clearSignalFromLinearNN, clearSignalNN, hv, hv0, ok_bind]
  · rw [mem_keys_initConst, CMap.mem_keys_remove]; tauto
  · rw [ModArith.mul_cast _ _ _ hp]; push_cast; simpa using hcast
  · exact wf_initConst (CMap.wf_remove hw _)
  · exact canon_initConst hp (canon_remove hcan _)
  · intro ρ
    have hab : k.a = [] ∧ k.b = [] := by
      unfold Constraint.isLinear at hl
      simpa [List.isEmpty_iff] using hl
    unfold Constraint.Holds
    rw [hab.1, hab.2, ev_nil, ev_initConst, ev_remove ρ hw, hv, ModArith.mul_cast _ _ _ hp]
    simp only [Option.getD_some]
    push_cast
    constructor
    · intro h; linear_combination h
    · intro h; linear_combination h

example : (⟨[], [], [(1, 1), (2, 1), (0, 3)]⟩ : Constraint Nat).clearSignalFromLinear 1 257 =
    .ok ⟨1, [(2, 256), (0, 254)]⟩ := by decide +kernel

end Verif.Props.Algebra
