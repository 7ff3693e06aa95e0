import Verif.Frg
import Verif.ModArithLemmas
import Mathlib.Data.Nat.ModEq
import Mathlib.Data.Int.ModEq
import Mathlib.Tactic.Ring
import Mathlib.Tactic.Linarith
import Mathlib.Tactic.LinearCombination

/-! Lemmas on `Verif.Frg`. -/

namespace Verif.Frg

set_option linter.unusedSimpArgs false
set_option linter.unusedVariables false

/-- What the template needs of the prime: odd, more than one limb, and not within a `2^64`-th part of
`2^(64·n64)`; and that its length in bits is an `int`. -/
structure Good (q : Nat) : Prop where
  odd : q % 2 = 1
  big : 2 ^ 64 < q
  top : (2 ^ 64 + 1) * q ≤ 2 ^ 64 * 2 ^ (64 * ((Nat.log2 q + 64) / 64))
  len : Nat.log2 q < 2 ^ 31

theorem w_pos : 0 < w := by unfold w; positivity

theorem w_pow (k : Nat) : w ^ k = 2 ^ (64 * k) := by unfold w; rw [← pow_mul]

theorem R_pow (q : Nat) : R q = w ^ n64 q := by rw [w_pow]; rfl

theorem lt_qbits (q : Nat) : q < 2 ^ qbits q := Nat.lt_log2_self

theorem le_qbits {q : Nat} (h : q ≠ 0) : 2 ^ qbits q ≤ 2 * q := by
  unfold qbits
  rw [pow_succ, mul_comm]
  exact Nat.mul_le_mul_left _ (Nat.log2_self_le h)

theorem qbits_le (q : Nat) : qbits q ≤ 64 * n64 q := by unfold n64; omega

theorem qbits_gt (q : Nat) : 64 * (n64 q - 1) < qbits q := by unfold n64 qbits; omega

theorem lt_R (q : Nat) : q < R q :=
  lt_of_lt_of_le (lt_qbits q) (Nat.pow_le_pow_right (by decide) (qbits_le q))

namespace Good

variable {q : Nat}

theorem pos (h : Good q) : 0 < q := lt_trans (by positivity) h.big

theorem w_lt (h : Good q) : w < q := h.big

theorem qbits_ge (h : Good q) : 65 ≤ qbits q := by
  by_contra hc
  have h1 := lt_qbits q
  have h2 : 2 ^ qbits q ≤ 2 ^ 64 := Nat.pow_le_pow_right (by decide) (by omega)
  have := h.big
  omega

theorem qbits_lt (h : Good q) : qbits q < w := by
  have := h.len
  have hw : w = 18446744073709551616 := by unfold w; norm_num
  unfold qbits; omega

theorem two_qbits (h : Good q) : 2 * qbits q + 2 ≤ q := by
  have h1 := h.qbits_ge
  have h2 := Nat.log2_self_le h.pos.ne'
  unfold qbits at *
  generalize Nat.log2 q = k at *
  have h3 : k - 2 < 2 ^ (k - 2) := Nat.lt_two_pow_self
  have h4 : 2 ^ k = 4 * 2 ^ (k - 2) := by
    rw [show (4 : Nat) = 2 ^ 2 by norm_num, ← pow_add]; congr 1; omega
  omega

theorem n_ge (h : Good q) : 2 ≤ n64 q := by
  have := h.qbits_ge
  unfold n64; omega

theorem topR (h : Good q) : (w + 1) * q ≤ w * R q := h.top

end Good

theorem R_eq {q : Nat} (h : Good q) : R q = w * 2 ^ (64 * (n64 q - 1)) := by
  have := h.n_ge
  unfold R w
  rw [← pow_add]
  congr 1
  omega

theorem w_dvd_R {q : Nat} (h : Good q) : w ∣ R q := ⟨_, R_eq h⟩

theorem w_le_R {q : Nat} (h : Good q) : w < R q := lt_trans h.w_lt (lt_R q)

/-- Without `cannotOptimize` there is a spare bit. -/
theorem opt_bound {q : Nat} (h : Good q) (ho : cannotOptimize q = false) : 2 * q ≤ R q := by
  unfold cannotOptimize at ho
  have h1 : ¬ (q / 2 ^ ((n64 q - 1) * 64) > (w - 1) / 2 - 1) := by simpa using ho
  have hw : w = 18446744073709551616 := by unfold w; norm_num
  have h2 : q / 2 ^ ((n64 q - 1) * 64) < 9223372036854775807 := by rw [hw] at h1; omega
  have h3 := (Nat.div_lt_iff_lt_mul (by positivity)).1 h2
  rw [R_eq h, hw, mul_comm 64 (n64 q - 1)]
  generalize 2 ^ ((n64 q - 1) * 64) = X at *
  omega

theorem np_spec {q : Nat} (h : Good q) : w ∣ q * np q + 1 := by
  have hg : Int.gcd (q : Int) (w : Int) = 1 := by
    rw [Int.gcd_natCast_natCast]
    unfold w
    apply Nat.Coprime.pow_right
    rw [Nat.coprime_two_right, Nat.odd_iff]
    exact h.odd
  obtain ⟨i, hi⟩ := Option.isSome_iff_exists.1 ((ModArith.modInverse_isSome_iff _ _).2 hg)
  have hs := ModArith.modInverse_spec hi
  have hr : 0 ≤ i ∧ i < (w : Int) := by
    have hwp : (0 : Int) < w := by exact_mod_cast w_pos
    unfold ModArith.modInverse at hi
    rw [if_pos hg] at hi
    cases hi
    exact ⟨Int.emod_nonneg _ hwp.ne', Int.emod_lt_of_pos _ hwp⟩
  unfold np
  rw [hi]
  simp only
  obtain ⟨j, rfl⟩ := Int.eq_ofNat_of_zero_le hr.1
  have hj : j ≤ w := by have := hr.2; push_cast at this; omega
  zify
  have h1 : ((w - (j : Int).toNat : Nat) : Int) = (w : Int) - j := by
    rw [Int.toNat_natCast]; push_cast [hj]; rfl
  rw [h1]
  have h2 : (w : Int) ∣ (q : Int) * j - 1 := by
    have := hs.symm.dvd
    simpa using this
  obtain ⟨k, hk⟩ := h2
  exact ⟨(q : Int) - k, by linear_combination -hk⟩

theorem limb_zero (x : Nat) : limb 0 x = x % w := by simp [limb]

theorem np0_lt (q prod : Nat) : np0 q prod < w := Nat.mod_lt _ w_pos

theorem clear_dvd {q : Nat} (h : Good q) (prod : Nat) : w ∣ prod + q * np0 q prod := by
  obtain ⟨k, hk⟩ := np_spec h
  have e : np0 q prod ≡ np q * prod [MOD w] := by
    unfold np0
    rw [limb_zero]
    exact (Nat.mod_modEq _ _).trans (Nat.ModEq.mul_left _ (Nat.mod_modEq _ _))
  have e2 : prod + q * np0 q prod ≡ prod + q * (np q * prod) [MOD w] :=
    Nat.ModEq.add_left _ (Nat.ModEq.mul_left _ e)
  have e3 : prod + q * (np q * prod) = w * (k * prod) := by
    calc prod + q * (np q * prod) = (q * np q + 1) * prod := by ring
      _ = w * (k * prod) := by rw [hk]; ring
  rw [e3] at e2
  exact (Nat.modEq_zero_iff_dvd.1 (e2.trans (Nat.modEq_zero_iff_dvd.2 (dvd_mul_right _ _))))

/-- The product after one limb has been cleared and dropped. -/
def T (q prod : Nat) : Nat := (prod + q * np0 q prod) / w

theorem T_eq {q : Nat} (h : Good q) (prod : Nat) : prod + q * np0 q prod = w * T q prod :=
  (Nat.mul_div_cancel' (clear_dvd h prod)).symm

theorem T_lt {q prod : Nat} (h : Good q) (hp : prod < (w + 1) * q) : T q prod < 2 * q := by
  have e := T_eq h prod
  have h1 := np0_lt q prod
  have h2 : q * np0 q prod ≤ q * (w - 1) := Nat.mul_le_mul_left _ (by omega)
  have h3 : q * (w - 1) + q = q * w := by
    have hw := w_pos
    rw [← Nat.mul_succ]; congr 1
  have h5 : (w + 1) * q = q * w + q := by ring
  have h4 : w * T q prod < w * (2 * q) := by
    have : w * (2 * q) = 2 * (q * w) := by ring
    omega
  exact lt_of_mul_lt_mul_left h4 (Nat.zero_le _)

theorem T_modEq {q : Nat} (h : Good q) (prod : Nat) : T q prod * w ≡ prod [MOD q] := by
  rw [mul_comm, ← T_eq h]
  exact (Nat.modEq_iff_dvd' (by omega)).2 (by simp) |>.symm

theorem rest_eq {q : Nat} (h : Good q) (prod : Nat) :
    (prod + q * np0 q prod) % (R q * w) / w = T q prod % R q ∧
      (prod + q * np0 q prod) / (R q * w) = T q prod / R q := by
  rw [T_eq h, mul_comm (R q) w, Nat.mul_mod_mul_left, Nat.mul_div_cancel_left _ w_pos,
    Nat.mul_div_mul_left _ _ w_pos]
  exact ⟨rfl, rfl⟩

theorem T_div_opt {q prod : Nat} (h : Good q) (hp : prod < (w + 1) * q)
    (ho : cannotOptimize q = false) : T q prod / R q = 0 ∧ T q prod % R q = T q prod := by
  have h1 := T_lt h hp
  have h2 := opt_bound h ho
  exact ⟨Nat.div_eq_of_lt (by omega), Nat.mod_eq_of_lt (by omega)⟩

theorem mmulStep_eq {q b prod ai : Nat} (h : Good q) (hb : b < q) (ha : ai < w)
    (hp : prod < (w + 1) * q) :
    mmulStep q b prod ai = (b * ai + T q prod, 0) ∧ b * ai + T q prod < (w + 1) * q := by
  have hT := T_lt h hp
  have hR := lt_R q
  have hba : b * ai ≤ (q - 1) * (w - 1) := Nat.mul_le_mul (by omega) (by omega)
  have hq1 : (q - 1) * (w - 1) + (w - 1) = q * (w - 1) := by
    have := h.pos
    rw [← Nat.succ_mul]; congr 1; omega
  have hw : 1 < w := by unfold w; norm_num
  have hq2 : q * (w - 1) + q = q * w := by rw [← Nat.mul_succ]; congr 1
  have hexp : (w + 1) * q = q * w + q := by ring
  have hlt : b * ai + T q prod < (w + 1) * q := by omega
  refine ⟨?_, hlt⟩
  have hfin : b * ai + T q prod < R q * w := by
    have := h.topR
    rw [mul_comm w] at this
    omega
  obtain ⟨e1, e2⟩ := rest_eq h prod
  have key : b * ai % R q + (if cannotOptimize q then (T q prod / R q + b * ai / R q) % w else b * ai / R q) * R q
      + T q prod % R q = b * ai + T q prod := by
    cases ho : cannotOptimize q with
    | false =>
      obtain ⟨_, h4⟩ := T_div_opt h hp ho
      rw [h4]
      have := Nat.mod_add_div' (b * ai) (R q)
      simp only [Bool.false_eq_true, if_false]
      omega
    | true =>
      simp only [if_true]
      have hc : T q prod / R q ≤ 1 := by
        have : T q prod / R q < 2 := Nat.div_lt_of_lt_mul (by omega)
        omega
      have hhi : b * ai / R q < w - 1 := by
        apply Nat.div_lt_of_lt_mul
        have : q * (w - 1) < R q * (w - 1) := Nat.mul_lt_mul_of_pos_right hR (by omega)
        omega
      rw [Nat.mod_eq_of_lt (a := T q prod / R q + b * ai / R q) (by omega), Nat.add_mul]
      have h5 := Nat.mod_add_div' (b * ai) (R q)
      have h6 := Nat.mod_add_div' (T q prod) (R q)
      omega
  unfold mmulStep
  simp only [e1, e2, key]
  rw [Nat.mod_eq_of_lt hfin, Nat.div_eq_of_lt hfin]

theorem limb_lt (i x : Nat) : limb i x < w := Nat.mod_lt _ w_pos

theorem mmulLoop_spec {q a b : Nat} (h : Good q) (hb : b < q) : ∀ k,
    (mmulLoop q a b k).1 * w ^ k ≡ b * (a % w ^ (k + 1)) [MOD q] ∧
      (mmulLoop q a b k).1 < (w + 1) * q ∧ (mmulLoop q a b k).2 = 0
  | 0 => by
    simp only [mmulLoop, pow_zero, mul_one, limb_zero, zero_add, pow_one]
    refine ⟨Nat.ModEq.refl _, ?_, trivial⟩
    have h1 : a % w < w := Nat.mod_lt _ w_pos
    have h2 : b * (a % w) ≤ b * w := Nat.mul_le_mul_left _ h1.le
    have h3 : b * w < q * w := Nat.mul_lt_mul_of_pos_right hb w_pos
    have : (w + 1) * q = q * w + q := by ring
    omega
  | k + 1 => by
    obtain ⟨i1, i2, i3⟩ := mmulLoop_spec (a := a) h hb k
    obtain ⟨s1, s2⟩ := mmulStep_eq h hb (limb_lt (k + 1) a) i2
    simp only [mmulLoop, s1]
    refine ⟨?_, s2, trivial⟩
    rw [Nat.mod_pow_succ (b := w) (k := k + 1)]
    have hl : limb (k + 1) a = a / w ^ (k + 1) % w := by unfold limb; rw [w_pow]
    rw [← hl]
    have e1 : (b * limb (k + 1) a + T q (mmulLoop q a b k).1) * w ^ (k + 1)
        = b * limb (k + 1) a * w ^ (k + 1) + T q (mmulLoop q a b k).1 * w * w ^ k := by ring
    have e2 : b * (a % w ^ (k + 1) + w ^ (k + 1) * limb (k + 1) a)
        = b * limb (k + 1) a * w ^ (k + 1) + b * (a % w ^ (k + 1)) := by ring
    rw [e1, e2]
    exact Nat.ModEq.add_left _ (((T_modEq h _).mul_right _).trans i1)

theorem subN_of_le {q a b : Nat} (ha : a < R q) (h : b ≤ a) : subN q a b = a - b := by
  unfold subN
  rw [show a + R q - b = (a - b) + R q by omega, Nat.add_mod_right, Nat.mod_eq_of_lt (by omega)]

theorem subN_of_lt {q a b : Nat} (hb : b ≤ R q) (h : a < b) : subN q a b = a + R q - b := by
  unfold subN
  rw [Nat.mod_eq_of_lt (by omega)]

theorem mmulEnd_eq {q prod : Nat} (h : Good q) (hp : prod < (w + 1) * q) :
    mmulEnd q prod 0 = if q ≤ T q prod then T q prod - q else T q prod := by
  obtain ⟨e1, e2⟩ := rest_eq h prod
  have hT := T_lt h hp
  have hR := lt_R q
  unfold mmulEnd
  simp only [e1, e2, Nat.zero_add]
  cases ho : cannotOptimize q with
  | false =>
    obtain ⟨_, h4⟩ := T_div_opt h hp ho
    have := opt_bound h ho
    simp only [h4, Bool.false_eq_true, if_false, ne_eq, not_true_eq_false, false_or]
    split
    · rw [subN_of_le (by omega) (by assumption)]
    · rfl
  | true =>
    simp only [if_true]
    by_cases hc : T q prod < R q
    · rw [Nat.div_eq_of_lt hc, Nat.mod_eq_of_lt hc]
      simp only [ne_eq, not_true_eq_false, false_or]
      split
      · rw [subN_of_le (by omega) (by assumption)]
      · rfl
    · have hm : T q prod % R q = T q prod - R q := by
        rw [Nat.mod_eq_sub_mod (by omega), Nat.mod_eq_of_lt (by omega)]
      have hd : T q prod / R q ≠ 0 := (Nat.div_pos (by omega) (by omega)).ne'
      rw [if_pos (Or.inl hd), hm, if_pos (by omega), subN_of_lt (by omega) (by omega)]
      omega

theorem mmulEnd_spec {q prod : Nat} (h : Good q) (hp : prod < (w + 1) * q) :
    mmulEnd q prod 0 < q ∧ mmulEnd q prod 0 * w ≡ prod [MOD q] := by
  rw [mmulEnd_eq h hp]
  have hT := T_lt h hp
  split
  · refine ⟨by omega, Nat.ModEq.trans (Nat.ModEq.mul_right _ ?_) (T_modEq h prod)⟩
    refine (Nat.modEq_iff_dvd' (by omega)).2 ?_
    rw [show T q prod - (T q prod - q) = q by omega]
  · exact ⟨by omega, T_modEq h prod⟩

/-- The Montgomery product. -/
theorem rawMMul_spec {q a b : Nat} (h : Good q) (ha : a < R q) (hb : b < q) :
    rawMMul q a b < q ∧ rawMMul q a b * R q ≡ a * b [MOD q] := by
  obtain ⟨i1, i2, i3⟩ := mmulLoop_spec (a := a) h hb (n64 q - 1)
  have hn := h.n_ge
  have hk : n64 q - 1 + 1 = n64 q := by omega
  rw [hk, ← R_pow, Nat.mod_eq_of_lt ha] at i1
  unfold rawMMul
  simp only [i3]
  obtain ⟨e1, e2⟩ := mmulEnd_spec h i2
  refine ⟨e1, ?_⟩
  have : R q = w * w ^ (n64 q - 1) := by rw [← pow_succ', hk, R_pow]
  rw [this, ← mul_assoc, mul_comm a b]
  exact (e2.mul_right _).trans i1

theorem mmul1Step_eq {q prod : Nat} (h : Good q) (hp : prod < (w + 1) * q) :
    mmul1Step q prod = T q prod := by
  obtain ⟨e1, e2⟩ := rest_eq h prod
  have hT := T_lt h hp
  have hR := lt_R q
  have hw : 1 < w := by unfold w; norm_num
  have hlt : T q prod < R q * w := by
    have : R q * 2 ≤ R q * w := Nat.mul_le_mul_left _ (by omega)
    omega
  unfold mmul1Step
  simp only [e1, e2]
  cases ho : cannotOptimize q with
  | false =>
    obtain ⟨h3, h4⟩ := T_div_opt h hp ho
    simp only [h3, h4, Bool.false_eq_true, if_false, Nat.zero_mul, Nat.zero_add]
    exact Nat.mod_eq_of_lt hlt
  | true =>
    simp only [if_true]
    have := Nat.mod_add_div (T q prod) (R q)
    rw [show T q prod / R q * R q + T q prod % R q = T q prod by rw [mul_comm]; omega]
    exact Nat.mod_eq_of_lt hlt

theorem mmul1Loop_spec {q prod : Nat} (h : Good q) (hp : prod < (w + 1) * q) : ∀ k,
    mmul1Loop q prod k * w ^ k ≡ prod [MOD q] ∧ mmul1Loop q prod k < (w + 1) * q
  | 0 => by simp only [mmul1Loop, pow_zero, mul_one]; exact ⟨Nat.ModEq.refl _, hp⟩
  | k + 1 => by
    obtain ⟨i1, i2⟩ := mmul1Loop_spec h hp k
    simp only [mmul1Loop, mmul1Step_eq h i2]
    constructor
    · rw [show T q (mmul1Loop q prod k) * w ^ (k + 1) = T q (mmul1Loop q prod k) * w * w ^ k by ring]
      exact ((T_modEq h _).mul_right _).trans i1
    · have h1 := T_lt h i2
      have hw : 1 < w := by unfold w; norm_num
      have : 2 * q ≤ (w + 1) * q := Nat.mul_le_mul_right _ (by omega)
      omega

theorem mmul1_spec {q prod : Nat} (h : Good q) (hp : prod < (w + 1) * q) :
    mmulEnd q (mmul1Loop q prod (n64 q - 1)) 0 < q ∧
      mmulEnd q (mmul1Loop q prod (n64 q - 1)) 0 * R q ≡ prod [MOD q] := by
  obtain ⟨i1, i2⟩ := mmul1Loop_spec h hp (n64 q - 1)
  obtain ⟨e1, e2⟩ := mmulEnd_spec h i2
  have hn := h.n_ge
  have hk : n64 q - 1 + 1 = n64 q := by omega
  have : R q = w * w ^ (n64 q - 1) := by rw [← pow_succ', hk, R_pow]
  refine ⟨e1, ?_⟩
  rw [this, ← mul_assoc]
  exact (e2.mul_right _).trans i1

theorem rawMMul1_spec {q a b : Nat} (h : Good q) (ha : a < q) (hb : b < w) :
    rawMMul1 q a b < q ∧ rawMMul1 q a b * R q ≡ a * b [MOD q] := by
  apply mmul1_spec h
  have h1 : a * b ≤ q * b := Nat.mul_le_mul_right _ ha.le
  have h2 : q * b ≤ q * w := Nat.mul_le_mul_left _ hb.le
  have h3 : (w + 1) * q = q * w + q := by ring
  have := h.pos
  omega

theorem rawFromMontgomery_spec {q a : Nat} (h : Good q) (ha : a < q) :
    rawFromMontgomery q a < q ∧ rawFromMontgomery q a * R q ≡ a [MOD q] := by
  apply mmul1_spec h
  have : (w + 1) * q = q * w + q := by ring
  omega

theorem coprime_R {q : Nat} (h : Good q) : Nat.gcd q (R q) = 1 := by
  unfold R
  apply Nat.Coprime.pow_right
  rw [Nat.coprime_two_right, Nat.odd_iff]
  exact h.odd

theorem cancel_R {q x y : Nat} (h : Good q) (e : x * R q ≡ y * R q [MOD q]) : x ≡ y [MOD q] :=
  Nat.ModEq.cancel_right_of_coprime (coprime_R h) e

end Verif.Frg
