import Verif.WFrInt
import Verif.FrgElLemmas
import Mathlib.Algebra.BigOperators.Intervals
import Mathlib.Algebra.BigOperators.Ring.Finset
import Mathlib.Algebra.Order.BigOperators.Group.Finset
import Mathlib.Data.Nat.ModEq
import Mathlib.Tactic.Ring
import Mathlib.Tactic.Linarith

/-! Lemmas on `Verif.WFrInt`: the functions on limbs compute what their names say. -/

namespace Verif.WFr

set_option linter.unusedSimpArgs false
set_option linter.unusedVariables false

open Verif.Frg (w qbits n64 R limb)

/-- What the functions need of the prime: odd, more than 63 bits, and not more than a million. -/
structure Good (q : Nat) : Prop where
  odd : q % 2 = 1
  big : 2 ^ 63 < q
  len : Nat.log2 q < 2 ^ 20

theorem B_val : B = 4294967296 := by unfold B; norm_num
theorem B_pos : 0 < B := by unfold B; positivity
theorem w_eq : w = B * B := by unfold w B; rw [← pow_add]
theorem w_val : w = 18446744073709551616 := by unfold w; norm_num
theorem B_pow (k : Nat) : B ^ k = 2 ^ (32 * k) := by unfold B; rw [← pow_mul]

theorem l32_eq (i x : Nat) : l32 i x = x / B ^ i % B := by rw [B_pow]; rfl
theorem l32_lt (i x : Nat) : l32 i x < B := Nat.mod_lt _ B_pos

theorem R_eq (q : Nat) : R q = B ^ N q := by
  unfold R N; rw [B_pow]; congr 1; omega

theorem R_w (q : Nat) : R q = w ^ n64 q := Frg.R_pow q

/-- The number so far and the limb: a number cut at limb `k + 1`. -/
theorem mod_succ (x k : Nat) : x % B ^ (k + 1) = x % B ^ k + l32 k x * B ^ k := by
  rw [l32_eq, Nat.mod_pow_succ, mul_comm]

theorem limb_eq (i x : Nat) : limb i x = x / w ^ i % w := by rw [Frg.w_pow]; rfl

theorem modw_succ (x k : Nat) : x % w ^ (k + 1) = x % w ^ k + limb k x * w ^ k := by
  rw [limb_eq, Nat.mod_pow_succ, mul_comm]

namespace Good
variable {q : Nat}
theorem pos (h : Good q) : 0 < q := lt_trans (by positivity) h.big
theorem n_pos (h : Good q) : 1 ≤ n64 q := by unfold n64 qbits; omega
theorem N_pos (h : Good q) : 2 ≤ N q := by have := h.n_pos; unfold N; omega
theorem N_le (h : Good q) : N q ≤ 2 ^ 16 := by have := h.len; unfold N n64 qbits; omega
theorem lt_R (h : Good q) : q < R q := Frg.lt_R q
theorem R_ge (h : Good q) : w ≤ R q := by
  rw [R_w]; exact Nat.le_self_pow (by have := h.n_pos; omega) _
end Good

/-! ## Comparisons -/

theorem isZeroFrom_eq (x : Nat) : ∀ k, isZeroFrom x k = decide (x % w ^ (k + 1) = 0)
  | 0 => by
    unfold isZeroFrom
    rw [limb_eq]; simp; rfl
  | k + 1 => by
    have hw : 0 < w ^ (k + 1) := pow_pos Frg.w_pos _
    unfold isZeroFrom
    rw [isZeroFrom_eq x k, modw_succ x (k + 1)]
    by_cases h : limb (k + 1) x = 0
    · simp [h]
    · simp only [beq_iff_eq, h, if_false]
      rw [eq_comm, decide_eq_false_iff_not]
      have : 0 < limb (k + 1) x * w ^ (k + 1) := Nat.mul_pos (by omega) hw
      exact (Nat.lt_of_lt_of_le this (Nat.le_add_left _ _)).ne'

theorem cut {a b c d W : Nat} (ha : a < W) (hb : b < W) :
    (a + c * W = b + d * W ↔ a = b ∧ c = d) ∧ (c < d → a + c * W < b + d * W) := by
  have hlt : ∀ {a b c d : Nat}, a < W → c < d → a + c * W < b + d * W := by
    intro a b c d ha h
    have : (c + 1) * W ≤ d * W := Nat.mul_le_mul_right _ h
    rw [Nat.add_mul, Nat.one_mul] at this
    omega
  refine ⟨⟨fun h => ?_, fun ⟨h1, h2⟩ => by rw [h1, h2]⟩, hlt ha⟩
  rcases Nat.lt_trichotomy c d with hc | hc | hc
  · have := hlt (b := b) ha hc; omega
  · subst hc; exact ⟨by omega, rfl⟩
  · have := hlt (b := a) hb hc; omega

theorem eqFrom_eq (x y : Nat) : ∀ k, eqFrom x y k = decide (x % w ^ (k + 1) = y % w ^ (k + 1))
  | 0 => by unfold eqFrom; rw [limb_eq, limb_eq]; simp; rfl
  | k + 1 => by
    have hw : 0 < w ^ (k + 1) := pow_pos Frg.w_pos _
    unfold eqFrom
    rw [eqFrom_eq x y k, modw_succ x (k + 1), modw_succ y (k + 1)]
    have := (cut (c := limb (k + 1) x) (d := limb (k + 1) y) (Nat.mod_lt x hw) (Nat.mod_lt y hw)).1
    simp only [this]
    by_cases h : limb (k + 1) x = limb (k + 1) y <;> simp [h]

theorem gtFrom_eq (x y : Nat) : ∀ k, gtFrom x y k = decide (y % w ^ (k + 1) < x % w ^ (k + 1))
  | 0 => by unfold gtFrom; rw [limb_eq, limb_eq]; simp
  | k + 1 => by
    have hw : 0 < w ^ (k + 1) := pow_pos Frg.w_pos _
    unfold gtFrom
    rw [gtFrom_eq x y k, modw_succ x (k + 1), modw_succ y (k + 1)]
    have h1 := (cut (c := limb (k + 1) x) (d := limb (k + 1) y) (Nat.mod_lt x hw) (Nat.mod_lt y hw)).2
    have h2 := (cut (c := limb (k + 1) y) (d := limb (k + 1) x) (Nat.mod_lt y hw) (Nat.mod_lt x hw)).2
    split
    · next h => have := h1 h; rw [eq_comm, decide_eq_false_iff_not]; omega
    · split
      · next h => have := h2 h; rw [eq_comm, decide_eq_true_iff]; omega
      · have e : limb (k + 1) x = limb (k + 1) y := by omega
        rw [e, decide_eq_decide]; omega

theorem gteFrom_eq (x y : Nat) : ∀ k, gteFrom x y k = decide (y % w ^ (k + 1) ≤ x % w ^ (k + 1))
  | 0 => by unfold gteFrom; rw [limb_eq, limb_eq]; simp
  | k + 1 => by
    have hw : 0 < w ^ (k + 1) := pow_pos Frg.w_pos _
    unfold gteFrom
    rw [gteFrom_eq x y k, modw_succ x (k + 1), modw_succ y (k + 1)]
    have h1 := (cut (c := limb (k + 1) x) (d := limb (k + 1) y) (Nat.mod_lt x hw) (Nat.mod_lt y hw)).2
    have h2 := (cut (c := limb (k + 1) y) (d := limb (k + 1) x) (Nat.mod_lt y hw) (Nat.mod_lt x hw)).2
    split
    · next h => have := h1 h; rw [eq_comm, decide_eq_false_iff_not]; omega
    · split
      · next h => have := h2 h; rw [eq_comm, decide_eq_true_iff]; omega
      · have e : limb (k + 1) x = limb (k + 1) y := by omega
        rw [e, decide_eq_decide]; omega

section
variable {q x y : Nat} (h : Good q) (hx : x < R q) (hy : y < R q)
include h hx

theorem top_mod : x % w ^ (n64 q - 1 + 1) = x := by
  have := h.n_pos
  rw [show n64 q - 1 + 1 = n64 q by omega, ← R_w]
  exact Nat.mod_eq_of_lt hx

theorem intIsZero_eq : intIsZero q x = decide (x = 0) := by
  unfold intIsZero; rw [isZeroFrom_eq, top_mod h hx]

include hy

theorem intEq_eq : intEq q x y = decide (x = y) := by
  unfold intEq; rw [eqFrom_eq, top_mod h hx, top_mod h hy]

theorem intGt_eq : intGt q x y = decide (y < x) := by
  unfold intGt; rw [gtFrom_eq, top_mod h hx, top_mod h hy]

theorem intGte_eq : intGte q x y = decide (y ≤ x) := by
  unfold intGte; rw [gteFrom_eq, top_mod h hx, top_mod h hy]

end

/-! ## Sum and difference -/

theorem addLoop_spec (x y : Nat) : ∀ k,
    (addLoop x y k).1 + (addLoop x y k).2 / B * B ^ k = x % B ^ k + y % B ^ k ∧
      (addLoop x y k).1 < B ^ k ∧ (addLoop x y k).2 / B ≤ 1
  | 0 => by simp [addLoop, Nat.mod_one]
  | k + 1 => by
    obtain ⟨i1, i2, i3⟩ := addLoop_spec x y k
    have hx := l32_lt k x
    have hy := l32_lt k y
    have hB := B_val
    have hw := w_val
    simp only [addLoop]
    generalize (addLoop x y k).2 / B = c at *
    generalize (addLoop x y k).1 = r at *
    rw [Nat.mod_eq_of_lt (show l32 k x + l32 k y + c < w by omega), ← B_pow, mod_succ, mod_succ, pow_succ]
    refine ⟨?_, ?_, ?_⟩
    · have := Nat.mod_add_div (l32 k x + l32 k y + c) B
      calc _ = r + ((l32 k x + l32 k y + c) % B + B * ((l32 k x + l32 k y + c) / B)) * B ^ k := by ring
        _ = r + (l32 k x + l32 k y + c) * B ^ k := by rw [this]
        _ = (r + c * B ^ k) + l32 k x * B ^ k + l32 k y * B ^ k := by ring
        _ = _ := by rw [i1]; ring
    · have h1 : (l32 k x + l32 k y + c) % B + 1 ≤ B := Nat.mod_lt _ B_pos
      have := Nat.mul_le_mul_right (B ^ k) h1
      rw [Nat.add_mul, Nat.one_mul] at this
      rw [mul_comm (B ^ k) B]
      omega
    · rw [hB]; omega

theorem intAdd_eq (q x y : Nat) (hx : x < R q) (hy : y < R q) :
    intAdd q x y = ((x + y) % R q, (x + y) / R q) := by
  obtain ⟨h1, h2, h3⟩ := addLoop_spec x y (N q)
  rw [← R_eq, Nat.mod_eq_of_lt hx, Nat.mod_eq_of_lt hy] at h1
  rw [← R_eq] at h2
  unfold intAdd
  simp only
  rw [← h1]
  have hR : 0 < R q := by omega
  rw [Nat.add_mul_mod_self_right, Nat.mod_eq_of_lt h2, Nat.add_mul_div_right _ _ hR, Nat.div_eq_of_lt h2]
  simp

theorem subLoop_spec (x y : Nat) : ∀ k,
    ((subLoop x y k).1 : Int) + (subLoop x y k).2 / (B : Int) * (B : Int) ^ k = (x % B ^ k : Nat) - (y % B ^ k : Nat) ∧
      (subLoop x y k).1 < B ^ k
  | 0 => by simp [subLoop, Nat.mod_one]
  | k + 1 => by
    obtain ⟨i1, i2⟩ := subLoop_spec x y k
    have hB : (0 : Int) < B := by exact_mod_cast B_pos
    simp only [subLoop]
    generalize (subLoop x y k).2 / (B : Int) = c at *
    generalize (subLoop x y k).1 = r at *
    rw [← B_pow, mod_succ, mod_succ, pow_succ, pow_succ]
    have h0 := Int.emod_nonneg ((l32 k x : Int) - l32 k y + c) hB.ne'
    have h1 := Int.emod_lt_of_pos ((l32 k x : Int) - l32 k y + c) hB
    refine ⟨?_, ?_⟩
    · push_cast
      rw [Int.toNat_of_nonneg h0]
      have := Int.emod_add_mul_ediv ((l32 k x : Int) - l32 k y + c) B
      push_cast at i1
      calc _ = (r : Int) + (((l32 k x : Int) - l32 k y + c) % (B : Int) + (B : Int) * (((l32 k x : Int) - l32 k y + c) / (B : Int))) * (B : Int) ^ k := by ring
        _ = (r : Int) + ((l32 k x : Int) - l32 k y + c) * (B : Int) ^ k := by rw [this]
        _ = ((r : Int) + c * (B : Int) ^ k) + l32 k x * (B : Int) ^ k - l32 k y * (B : Int) ^ k := by ring
        _ = _ := by rw [i1]; ring
    · have h2 : (((l32 k x : Int) - l32 k y + c) % (B : Int)).toNat + 1 ≤ B := by omega
      have := Nat.mul_le_mul_right (B ^ k) h2
      rw [Nat.add_mul, Nat.one_mul] at this
      rw [mul_comm (B ^ k) B]
      omega

theorem intSub_eq (q x y : Nat) (hx : x < R q) (hy : y < R q) :
    ((intSub q x y).2 ≠ 0 ↔ x < y) ∧ (intSub q x y).1 = if x < y then x + R q - y else x - y := by
  obtain ⟨h1, h2⟩ := subLoop_spec x y (N q)
  have hRc : ((R q : Nat) : Int) = (B : Int) ^ N q := by rw [R_eq]; push_cast; rfl
  rw [← hRc, ← R_eq, Nat.mod_eq_of_lt hx, Nat.mod_eq_of_lt hy] at h1
  rw [← R_eq] at h2
  unfold intSub
  simp only
  generalize (subLoop x y (N q)).1 = r at *
  generalize (subLoop x y (N q)).2 / (B : Int) = c at *
  have hR : (0 : Int) < R q := by omega
  have hc : c = 0 ∨ c = -1 := by
    have a1 : c * (R q : Int) < (R q : Int) := by omega
    have a2 : -2 * (R q : Int) < c * (R q : Int) := by omega
    have b1 : c < 1 := lt_of_mul_lt_mul_right (by linarith) hR.le
    have b2 : -2 < c := lt_of_mul_lt_mul_right a2 hR.le
    omega
  rcases hc with rfl | rfl
  · have : ¬ x < y := by omega
    simp only [this, if_false]
    exact ⟨by simp, by omega⟩
  · have : x < y := by omega
    simp only [this, if_true]
    exact ⟨by simp, by omega⟩

theorem intSub_le {q x y : Nat} (hx : x < R q) (h : y ≤ x) : (intSub q x y).1 = x - y := by
  rw [(intSub_eq q x y hx (by omega)).2, if_neg (by omega)]

/-! ## Modulo `q` -/

section
variable {q x y : Nat} (h : Good q)
include h

/-- Used for a sum below `2q` that may have a carry. -/
theorem reduce {s : Nat} (hs : s < 2 * q) :
    (if s / R q ≠ 0 then (intSub q (s % R q) q).1
      else if intGte q (s % R q) q then (intSub q (s % R q) q).1 else s % R q) = if q ≤ s then s - q else s := by
  have hR := h.lt_R
  have hRp : 0 < R q := by omega
  have hm : s % R q < R q := Nat.mod_lt _ hRp
  rw [intGte_eq h hm hR]
  by_cases hc : s < R q
  · rw [Nat.div_eq_of_lt hc, Nat.mod_eq_of_lt hc]
    simp only [ne_eq, not_true_eq_false, if_false, decide_eq_true_eq]
    split
    · rw [intSub_le hc (by assumption)]
    · rfl
  · have hd : s / R q ≠ 0 := (Nat.div_pos (by omega) hRp).ne'
    have hmod : s % R q = s - R q := by rw [Nat.mod_eq_sub_mod (by omega), Nat.mod_eq_of_lt (by omega)]
    rw [if_pos hd, if_pos (by omega), (intSub_eq q _ q hm hR).2, if_pos (by omega)]
    omega

theorem f1mAdd_eq (hx : x < R q) (hy : y < R q) (hs : x + y < 2 * q) : f1mAdd q x y = if q ≤ x + y then x + y - q else x + y := by
  unfold f1mAdd
  simp only [intAdd_eq q x y hx hy]
  exact reduce h hs

theorem f1mSub_eq (hx : x < q) (hy : y < q) : f1mSub q x y = if x < y then x + q - y else x - y := by
  have hR := h.lt_R
  obtain ⟨h1, h2⟩ := intSub_eq q x y (by omega) (by omega)
  unfold f1mSub
  simp only [h1, h2]
  split
  · rw [intAdd_eq q _ _ (by omega) hR, show x + R q - y + q = (x + q - y) + R q by omega, Nat.add_mod_right,
      Nat.mod_eq_of_lt (by omega)]
  · rfl

end

end Verif.WFr
