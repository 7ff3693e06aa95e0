import Verif.WFr
import Verif.WFrDivLemmas

/-! Lemmas on `Verif.WFr`: words, shifts and bits. -/

namespace Verif.WFr

set_option linter.unusedSimpArgs false
set_option linter.unusedVariables false

open Verif.Frg (w qbits n64 R limb)

theorem w_two : w = 2 ^ 64 := rfl

theorem w_pow_two (k : Nat) : w ^ k = 2 ^ (64 * k) := by rw [w_two, ← pow_mul]

theorem limb_lt (i x : Nat) : limb i x < w := by rw [limb_eq]; exact Nat.mod_lt _ Frg.w_pos

theorem limb_bit (i x j : Nat) : (limb i x).testBit j = (decide (j < 64) && x.testBit (64 * i + j)) := by
  rw [limb_eq, w_pow_two, w_two, Nat.testBit_mod_two_pow, Nat.testBit_div_two_pow, Nat.add_comm]

theorem ofWords_lt {f : Nat → Nat} (hf : ∀ i, f i < w) : ∀ n, ofWords f n < w ^ n
  | 0 => by simp [ofWords]
  | n + 1 => by
    have h1 := ofWords_lt hf n
    have h2 : f n + 1 ≤ w := hf n
    have := Nat.mul_le_mul_right (w ^ n) h2
    rw [Nat.add_mul, Nat.one_mul] at this
    unfold ofWords
    rw [pow_succ, mul_comm (w ^ n) w]
    omega

theorem ofWords_bit {f : Nat → Nat} (hf : ∀ i, f i < w) : ∀ n j, (ofWords f n).testBit j = (decide (j < 64 * n) && (f (j / 64)).testBit (j % 64))
  | 0, j => by simp [ofWords]
  | n + 1, j => by
    have h1 := ofWords_lt hf n
    unfold ofWords
    rw [w_pow_two] at h1 ⊢
    rw [Nat.add_comm, Nat.mul_comm (f n), Nat.testBit_two_pow_mul_add _ h1, ofWords_bit hf n j]
    by_cases hj : j < 64 * n
    · simp [hj, show j < 64 * (n + 1) by omega]
    · rw [if_neg hj]
      by_cases hj2 : j < 64 * (n + 1)
      · rw [show j / 64 = n by omega, show j - 64 * n = j % 64 by omega]
        simp [hj2]
      · simp only [hj2, decide_false, Bool.false_and]
        exact Nat.testBit_lt_two_pow (lt_of_lt_of_le (hf n) (by rw [w_two]; exact Nat.pow_le_pow_right (by norm_num) (by omega)))

theorem ext_R {q x y : Nat} (hx : x < R q) (hy : y < R q) (h : ∀ j, j < 64 * n64 q → x.testBit j = y.testBit j) : x = y := by
  apply Nat.eq_of_testBit_eq
  intro j
  by_cases hj : j < 64 * n64 q
  · exact h j hj
  · have hR : R q = 2 ^ (64 * n64 q) := by rw [R_w, w_pow_two]
    have hle : R q ≤ 2 ^ j := by rw [hR]; exact Nat.pow_le_pow_right (by norm_num) (by omega)
    rw [Nat.testBit_lt_two_pow (lt_of_lt_of_le hx hle), Nat.testBit_lt_two_pow (lt_of_lt_of_le hy hle)]

theorem bit_R {q x j : Nat} (hx : x < R q) (hj : 64 * n64 q ≤ j) : x.testBit j = false := by
  have hR : R q = 2 ^ (64 * n64 q) := by rw [R_w, w_pow_two]
  exact Nat.testBit_lt_two_pow (lt_of_lt_of_le hx (by rw [hR]; exact Nat.pow_le_pow_right (by norm_num) hj))

theorem chunk_lt (q x : Nat) (i : Int) : chunk q x i < w := by
  unfold chunk; split
  · exact limb_lt _ _
  · exact Frg.w_pos

theorem chunk_bit {q x : Nat} (hx : x < R q) (i : Int) (j : Nat) :
    (chunk q x i).testBit j = (decide (j < 64) && decide (0 ≤ i) && x.testBit (64 * i.toNat + j)) := by
  unfold chunk
  by_cases h0 : 0 ≤ i
  · by_cases h1 : i < n64 q
    · rw [if_pos ⟨h0, h1⟩, limb_bit]; simp [h0]
    · rw [if_neg (fun h => h1 h.2), bit_R hx (by omega)]; simp
  · rw [if_neg (fun h => h0 h.1)]; simp [h0]

theorem fixedShl_bit (a b j : Nat) (ha : a < w) :
    (fixedShl a b).testBit j = (decide (b < 64) && decide (j < 64) && decide (b ≤ j) && a.testBit (j - b)) := by
  unfold fixedShl
  by_cases hb : 64 ≤ b
  · rw [if_pos hb]; simp [show ¬ b < 64 by omega]
  · rw [if_neg hb, w_two, Nat.testBit_mod_two_pow, Nat.testBit_mul_two_pow]
    simp [show b < 64 by omega, Bool.and_assoc]

theorem fixedShr_bit (a b j : Nat) : (fixedShr a b).testBit j = (decide (b < 64) && a.testBit (j + b)) := by
  unfold fixedShr
  by_cases hb : 64 ≤ b
  · rw [if_pos hb]; simp [show ¬ b < 64 by omega]
  · rw [if_neg hb, Nat.testBit_div_two_pow]
    simp [show b < 64 by omega]

theorem fixedShl_lt (a b : Nat) : fixedShl a b < w := by
  unfold fixedShl; split
  · exact Frg.w_pos
  · exact Nat.mod_lt _ Frg.w_pos

theorem fixedShr_lt {a : Nat} (h : a < w) (b : Nat) : fixedShr a b < w := by
  unfold fixedShr; split
  · exact Frg.w_pos
  · exact lt_of_le_of_lt (Nat.div_le_self _ _) h

theorem or_lt_w {a b : Nat} (ha : a < w) (hb : b < w) : a ||| b < w := by
  rw [w_two] at *; exact Nat.or_lt_two_pow ha hb

theorem rawshll_eq {q x : Nat} (hx : x < R q) (n : Nat) : rawshll q x n = x * 2 ^ n % R q := by
  have hRp : 0 < R q := by omega
  have hf : ∀ i : Nat, fixedShl (chunk q x (i - (n / 64 : Nat))) (n % 64) ||| fixedShr (chunk q x (i - (n / 64 : Nat) - 1)) (64 - n % 64) < w :=
    fun i => or_lt_w (fixedShl_lt _ _) (fixedShr_lt (chunk_lt _ _ _) _)
  refine ext_R (q := q) ?_ (Nat.mod_lt _ hRp) fun j hj => ?_
  · rw [R_w]; exact ofWords_lt hf _
  · have hR : R q = 2 ^ (64 * n64 q) := by rw [R_w, w_pow_two]
    unfold rawshll
    rw [ofWords_bit hf, Nat.testBit_or, fixedShl_bit _ _ _ (chunk_lt _ _ _), fixedShr_bit, chunk_bit hx, chunk_bit hx,
      hR, Nat.testBit_mod_two_pow, Nat.testBit_mul_two_pow]
    simp only [hj, decide_true, Bool.true_and]
    by_cases ht : n % 64 ≤ j % 64
    · by_cases hn : n ≤ j
      · simp only [ht, hn, show n % 64 < 64 by omega, show j % 64 < 64 by omega, show j % 64 - n % 64 < 64 by omega,
          show (0 : Int) ≤ ((j / 64 : Nat) : Int) - ((n / 64 : Nat) : Int) by omega, decide_true, Bool.true_and,
          show ¬ (j % 64 + (64 - n % 64) < 64) by omega, decide_false, Bool.false_and, Bool.and_false, Bool.or_false]
        congr 1; omega
      · have h1 : ¬ ((0 : Int) ≤ ((j / 64 : Nat) : Int) - ((n / 64 : Nat) : Int)) := by omega
        have h2 : ¬ ((0 : Int) ≤ ((j / 64 : Nat) : Int) - ((n / 64 : Nat) : Int) - 1) := by omega
        simp only [hn, h1, h2, decide_false, Bool.and_false, Bool.false_and, Bool.or_false]
    · by_cases hn : n ≤ j
      · simp only [ht, hn, decide_true, decide_false, Bool.true_and, Bool.false_and, Bool.and_false, Bool.false_or,
          show 64 - n % 64 < 64 by omega, show j % 64 + (64 - n % 64) < 64 by omega,
          show (0 : Int) ≤ ((j / 64 : Nat) : Int) - ((n / 64 : Nat) : Int) - 1 by omega]
        congr 1; omega
      · have h2 : ¬ ((0 : Int) ≤ ((j / 64 : Nat) : Int) - ((n / 64 : Nat) : Int) - 1) := by omega
        simp only [hn, ht, h2, decide_false, Bool.and_false, Bool.false_and, Bool.or_false]

theorem rawshrl_eq {q x : Nat} (hx : x < R q) (n : Nat) : rawshrl q x n = x / 2 ^ n := by
  have hf : ∀ i : Nat, fixedShr (chunk q x (i + (n / 64 : Nat))) (n % 64) ||| fixedShl (chunk q x (i + (n / 64 : Nat) + 1)) (64 - n % 64) < w :=
    fun i => or_lt_w (fixedShr_lt (chunk_lt _ _ _) _) (fixedShl_lt _ _)
  refine ext_R (q := q) ?_ (lt_of_le_of_lt (Nat.div_le_self _ _) hx) fun j hj => ?_
  · rw [R_w]; exact ofWords_lt hf _
  · unfold rawshrl
    rw [ofWords_bit hf, Nat.testBit_or, fixedShl_bit _ _ _ (chunk_lt _ _ _), fixedShr_bit, chunk_bit hx, chunk_bit hx, Nat.testBit_div_two_pow]
    simp only [hj, decide_true, Bool.true_and]
    by_cases ht : j % 64 + n % 64 < 64
    · simp only [ht, show n % 64 < 64 by omega, decide_true, Bool.true_and,
        show (0 : Int) ≤ ((j / 64 : Nat) : Int) + ((n / 64 : Nat) : Int) by omega]
      have : decide (64 - n % 64 ≤ j % 64) = false := by simp; omega
      rw [this]
      simp only [Bool.and_false, Bool.false_and, Bool.or_false]
      congr 1; omega
    · have h1 : 64 - n % 64 ≤ j % 64 := by omega
      simp only [ht, h1, decide_true, decide_false, Bool.true_and, Bool.false_and, Bool.and_false, Bool.false_or,
        show 64 - n % 64 < 64 by omega, show j % 64 < 64 by omega, show j % 64 - (64 - n % 64) < 64 by omega,
        show (0 : Int) ≤ ((j / 64 : Nat) : Int) + ((n / 64 : Nat) : Int) + 1 by omega]
      congr 1; omega

theorem words2_eq {q : Nat} {f : Nat → Nat → Nat} {b : Bool → Bool → Bool} (hb : ∀ x y j, (f x y).testBit j = b (x.testBit j) (y.testBit j))
    (hlt : ∀ k x y, x < 2 ^ k → y < 2 ^ k → f x y < 2 ^ k) {x y : Nat} (hx : x < R q) (hy : y < R q) : words2 q f x y = f x y := by
  have hR : R q = 2 ^ (64 * n64 q) := by rw [R_w, w_pow_two]
  have hf : ∀ i, f (limb i x) (limb i y) < w := fun i => hlt 64 _ _ (limb_lt _ _) (limb_lt _ _)
  refine ext_R (q := q) ?_ (by rw [hR] at *; exact hlt _ _ _ hx hy) fun j hj => ?_
  · rw [R_w]; exact ofWords_lt hf _
  · unfold words2
    rw [ofWords_bit hf, hb, hb, limb_bit, limb_bit]
    simp only [hj, decide_true, Bool.true_and, show j % 64 < 64 by omega]
    rw [show 64 * (j / 64) + j % 64 = j by omega]

theorem notWords_eq {q x : Nat} (hx : x < R q) : ofWords (fun i => limb i x ^^^ (w - 1)) (n64 q) = R q - 1 - x := by
  have hR : R q = 2 ^ (64 * n64 q) := by rw [R_w, w_pow_two]
  have hf : ∀ i, limb i x ^^^ (w - 1) < w := fun i => by
    have := limb_lt i x
    rw [w_two] at *; exact Nat.xor_lt_two_pow this (by norm_num)
  refine ext_R (q := q) ?_ (by omega) fun j hj => ?_
  · rw [R_w]; exact ofWords_lt hf _
  · rw [ofWords_bit hf, Nat.testBit_xor, limb_bit, w_two, Nat.testBit_two_pow_sub_one, hR, show 2 ^ (64 * n64 q) - 1 - x = 2 ^ (64 * n64 q) - (x + 1) by omega,
      Nat.testBit_two_pow_sub_succ (by omega)]
    simp only [hj, decide_true, Bool.true_and, show j % 64 < 64 by omega, Bool.xor_true]
    rw [show 64 * (j / 64) + j % 64 = j by omega]

/-! ## Bits of the prime -/

theorem qbits_pos {q : Nat} (h : Good q) : 64 * (n64 q - 1) < qbits q := by
  have := h.n_pos
  unfold n64 qbits at *; omega

theorem qbits_le {q : Nat} : qbits q ≤ 64 * n64 q := by unfold n64 qbits; omega

theorem masked {q v : Nat} (h : Good q) (hv : v < R q) :
    v % w ^ (n64 q - 1) + (limb (n64 q - 1) v &&& topMask q) * w ^ (n64 q - 1) = v % 2 ^ qbits q := by
  have h1 := qbits_pos h
  have h2 := qbits_le (q := q)
  have h3 := h.n_pos
  unfold topMask
  rw [Nat.and_two_pow_sub_one_eq_mod, limb_eq, w_two, Nat.mod_mod_of_dvd _ (Nat.pow_dvd_pow 2 (by omega)), ← pow_mul,
    show 2 ^ qbits q = 2 ^ (64 * (n64 q - 1)) * 2 ^ (qbits q - 64 * (n64 q - 1)) by rw [← pow_add]; congr 1; omega, Nat.mod_mul,
    Nat.mul_comm]
  ring

theorem adjust_val {q v : Nat} (h : Good q) (hv : v < 2 ^ qbits q) :
    (if intGte q v q then (intSub q v q).1 else v) = v % q := by
  have h1 := Frg.le_qbits h.pos.ne'
  have hR : R q = 2 ^ (64 * n64 q) := by rw [R_w, w_pow_two]
  have h2 : 2 ^ qbits q ≤ R q := by rw [hR]; exact Nat.pow_le_pow_right (by norm_num) qbits_le
  have hq := h.lt_R
  rw [intGte_eq h (by omega) hq]
  by_cases hc : q ≤ v
  · simp only [hc, decide_true, if_true]
    rw [intSub_le (by omega) hc, Nat.mod_eq_sub_mod hc, Nat.mod_eq_of_lt (by omega)]
  · simp only [hc, decide_false, Bool.false_eq_true, if_false]
    rw [Nat.mod_eq_of_lt (by omega)]

end Verif.WFr
