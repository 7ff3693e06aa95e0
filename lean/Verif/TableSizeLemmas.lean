import Mathlib.Tactic.IntervalCases
import Verif.TableSize

/-! Rounding and logarithms for `TableSize`. -/

namespace Verif.TableSize

theorem lt_logb_one_add {y : ℝ} (h0 : 0 < y) (h1 : y < 1) : y < Real.logb 2 (1 + y) := by
  rw [Real.lt_logb_iff_rpow_lt (by norm_num) (by linarith)]
  have := rpow_one_add_lt_one_add_mul_self (s := 1) (by norm_num) (by norm_num) h0 h1
  have e : (1 : ℝ) + 1 = 2 := by norm_num
  rw [e] at this
  linarith

theorem logb_one_add_lt {y : ℝ} (h0 : 0 < y) : Real.logb 2 (1 + y) < 2 * y := by
  have h2 : (1 : ℝ) / 2 ≤ Real.log 2 := by
    have := Real.one_sub_inv_le_log_of_pos (show (0 : ℝ) < 2 by norm_num)
    norm_num at this
    linarith
  have hl : Real.log (1 + y) < y := by
    have := Real.log_lt_sub_one_of_pos (show 0 < 1 + y by linarith) (by linarith)
    linarith
  unfold Real.logb
  rw [div_lt_iff₀ (by linarith)]
  nlinarith

theorem logb_pow (k : Nat) : Real.logb 2 ((2 : ℝ) ^ k) = k := by
  rw [Real.logb_pow, Real.logb_self_eq_one (by norm_num), mul_one]

theorem logb_succ (k : Nat) : Real.logb 2 ((2 : ℝ) ^ k + 1) = k + Real.logb 2 (1 + 1 / 2 ^ k) := by
  have hp : (0 : ℝ) < 2 ^ k := by positivity
  have e : (2 : ℝ) ^ k + 1 = 2 ^ k * (1 + 1 / 2 ^ k) := by field_simp
  rw [e, Real.logb_mul (by positivity) (by positivity), logb_pow]

theorem toF32_small {n : Nat} (h : n ≤ 2 ^ 24) : toF32 n = n := by
  unfold toF32
  rw [if_pos h]

/-- Between two powers of two. -/
theorem bracket {n : Nat} (h : 1 < n) : ∃ k, 2 ^ k < n ∧ n ≤ 2 ^ (k + 1) := by
  have h1 : n - 1 ≠ 0 := by omega
  refine ⟨Nat.log2 (n - 1), ?_, ?_⟩
  · have := Nat.log2_self_le h1
    omega
  · have := Nat.lt_log2_self (n := n - 1)
    omega

theorem ceil_ge {L : ℝ → ℝ} (hL : Log2 L) {n k : Nat} (hk : k ≤ 20) (hn : 2 ^ k < n) (hlt : n ≤ 2 ^ 21) : k + 1 ≤ ⌈L (n : ℝ)⌉.toNat := by
  have hn1 : ((2 : ℝ) ^ k + 1) ≤ n := by exact_mod_cast hn
  have hlt' : (n : ℝ) ≤ 2 ^ 21 := by exact_mod_cast hlt
  have hp : (0 : ℝ) < 2 ^ k := by positivity
  have h1 : (1 : ℝ) ≤ 2 ^ k := one_le_pow₀ (by norm_num)
  have hmono : Real.logb 2 ((2 : ℝ) ^ k + 1) ≤ Real.logb 2 n := Real.logb_le_logb_of_le (by norm_num) (by positivity) hn1
  have hy : (1 : ℝ) / 2 ^ 20 ≤ 1 / 2 ^ k := one_div_le_one_div_of_le hp (pow_le_pow_right₀ (by norm_num) hk)
  have hs : (1 : ℝ) / 2 ^ 20 < Real.logb 2 (1 + 1 / 2 ^ k) := by
    have h20 : (1 : ℝ) / 2 ^ 20 < Real.logb 2 (1 + 1 / 2 ^ 20) := lt_logb_one_add (by positivity) (by norm_num)
    refine lt_of_lt_of_le h20 (Real.logb_le_logb_of_le (by norm_num) (by positivity) (by linarith))
  have hnear := abs_le.1 (hL.near n (by linarith) (lt_of_le_of_lt hlt' (by norm_num)))
  rw [logb_succ] at hmono
  have hgt : (k : ℝ) < L n := by linarith [hnear.1]
  have hc : (k : ℤ) < ⌈L (n : ℝ)⌉ := Int.lt_ceil.2 (by exact_mod_cast hgt)
  omega

theorem ceil_le {L : ℝ → ℝ} (hL : Log2 L) {n k : Nat} (h1 : 1 ≤ n) (hn : n ≤ 2 ^ k) (hk : k < 32) : ⌈L (n : ℝ)⌉.toNat ≤ k := by
  have h := hL.whole n k (by exact_mod_cast h1) (by exact_mod_cast hn) hk
  have : ⌈L (n : ℝ)⌉ ≤ (k : ℤ) := Int.ceil_le.2 (by exact_mod_cast h)
  omega

/-- Near `2 ^ k` the rounded logarithm is `k`. -/
theorem rounded {L : ℝ → ℝ} (hL : Log2 L) {k : Nat} (h16 : 16 ≤ k) (hk : k < 32) {x δ : ℝ} (hx : (2 : ℝ) ^ k ≤ x) (hx' : x < 2 ^ 32)
    (hl : Real.logb 2 x = k + δ) (h0 : 0 ≤ δ) (hd : δ < 1 / 2 ^ 20) : L x = k := by
  have h16' : (2 : ℝ) ^ 16 ≤ x := le_trans (pow_le_pow_right₀ (by norm_num) h16) hx
  obtain ⟨m, hm⟩ := hL.grid x h16' hx'
  have hnear := abs_le.1 (hL.near x (le_trans (by norm_num) h16') hx')
  rw [hl, hm] at hnear
  have e : m = (k : ℤ) * 2 ^ 19 := by
    have a : (m : ℝ) < (k : ℝ) * 2 ^ 19 + 1 := by
      have := hnear.2
      have : (m : ℝ) / 2 ^ 19 < k + 1 / 2 ^ 19 := by
        have : (1 : ℝ) / 2 ^ 20 + 1 / 2 ^ 20 = 1 / 2 ^ 19 := by norm_num
        linarith
      rw [div_lt_iff₀ (by positivity)] at this
      have e2 : ((k : ℝ) + 1 / 2 ^ 19) * 2 ^ 19 = k * 2 ^ 19 + 1 := by ring
      linarith
    have b : (k : ℝ) * 2 ^ 19 - 1 < m := by
      have := hnear.1
      have : (k : ℝ) - 1 / 2 ^ 19 < (m : ℝ) / 2 ^ 19 := by
        have : (1 : ℝ) / 2 ^ 20 < 1 / 2 ^ 19 := by norm_num
        linarith
      rw [lt_div_iff₀ (by positivity)] at this
      have e2 : ((k : ℝ) - 1 / 2 ^ 19) * 2 ^ 19 = k * 2 ^ 19 - 1 := by ring
      linarith
    have a' : m < (k : ℤ) * 2 ^ 19 + 1 := by exact_mod_cast a
    have b' : (k : ℤ) * 2 ^ 19 - 1 < m := by exact_mod_cast b
    omega
  rw [hm, e]
  push_cast
  norm_num

/-- There is such a logarithm. -/
theorem exists_log2 : ∃ L, Log2 L := by
  refine ⟨fun x => (round (Real.logb 2 x * 2 ^ 19) : ℝ) / 2 ^ 19, fun x _ _ => ?_, fun x _ _ => ⟨_, rfl⟩, fun x k h1 hx _ => ?_⟩
  swap
  · have hl : Real.logb 2 x ≤ k := by
      rw [← logb_pow k]
      exact Real.logb_le_logb_of_le (by norm_num) (by linarith) hx
    have hr : round (Real.logb 2 x * 2 ^ 19) ≤ (k : ℤ) * 2 ^ 19 := by
      rw [round_eq]
      have : Real.logb 2 x * 2 ^ 19 + 1 / 2 < (((k : ℤ) * 2 ^ 19 + 1 : ℤ) : ℝ) := by
        push_cast
        nlinarith
      have := Int.floor_lt.2 this
      omega
    have hr' : (round (Real.logb 2 x * 2 ^ 19) : ℝ) ≤ (k : ℝ) * 2 ^ 19 := by exact_mod_cast hr
    rw [div_le_iff₀ (by positivity)]
    exact hr'
  have h := abs_sub_round (Real.logb 2 x * 2 ^ 19)
  have e : (round (Real.logb 2 x * 2 ^ 19) : ℝ) / 2 ^ 19 - Real.logb 2 x =
      -((Real.logb 2 x * 2 ^ 19 - round (Real.logb 2 x * 2 ^ 19)) / 2 ^ 19) := by
    field_simp
    ring
  rw [e, abs_neg, abs_div, abs_of_pos (show (0 : ℝ) < 2 ^ 19 by positivity), div_le_iff₀ (by positivity)]
  refine le_trans h (by norm_num)

theorem toF32_over {k : Nat} (h : 21 ≤ k) (hk : k < 32) : toF32 (2 ^ k + 1) = if k < 24 then 2 ^ k + 1 else 2 ^ k := by
  interval_cases k <;> decide +kernel

theorem size_over {L : ℝ → ℝ} (hL : Log2 L) {k : Nat} (h : 21 ≤ k) (hk : k < 32) : size L (2 ^ k + 1) = 2 ^ k := by
  have hp : (2 : ℝ) ^ k < 2 ^ 32 - 1 := by
    have : (2 : ℝ) ^ k ≤ 2 ^ 31 := pow_le_pow_right₀ (by norm_num) (by omega)
    exact lt_of_le_of_lt this (by norm_num)
  have hc : L (toF32 (2 ^ k + 1) : ℝ) = k := by
    rw [toF32_over h hk]
    split
    · have e := logb_succ k
      have hy : (1 : ℝ) / 2 ^ k ≤ 1 / 2 ^ 21 := one_div_le_one_div_of_le (by positivity) (pow_le_pow_right₀ (by norm_num) h)
      have hup := logb_one_add_lt (y := 1 / 2 ^ k) (by positivity)
      push_cast
      refine rounded hL (by omega) hk (by linarith) (by linarith) e (Real.logb_nonneg (by norm_num) ?_) ?_
      · have : (0 : ℝ) < 1 / 2 ^ k := by positivity
        linarith
      · have : (2 : ℝ) * (1 / 2 ^ 21) = 1 / 2 ^ 20 := by norm_num
        linarith
    · push_cast
      refine rounded hL (by omega) hk le_rfl (by linarith) (δ := 0) ?_ le_rfl (by positivity)
      rw [logb_pow, add_zero]
  unfold size
  rw [if_neg (Nat.succ_ne_zero _), hc]
  have : ⌈(k : ℝ)⌉.toNat = k := by simp
  rw [this]
  refine max_eq_left ?_
  exact le_trans (by norm_num : 256 ≤ 2 ^ 21) (Nat.pow_le_pow_right (by norm_num) h)

end Verif.TableSize
