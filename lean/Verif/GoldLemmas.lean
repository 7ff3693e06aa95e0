import Verif.Gold
import Verif.ModArithLemmas
import Mathlib.Tactic.LinearCombination

/-!
# Lemmas on `Verif/Gold.lean`
-/

namespace Verif.Gold

set_option linter.unusedSimpArgs false
set_option linter.unusedVariables false

theorem add_eq {a b : Nat} (ha : a < P) (hb : b < P) : add a b = (a + b) % P := by
  have hP : P = 18446744069414584321 := rfl
  have hH : half = 9223372034707292160 := rfl
  unfold add wadd wsub
  generalize P = p at *
  generalize half = h at *
  subst hP hH
  by_cases h1 : a ≤ 9223372034707292160
  · rw [if_pos h1]
    by_cases h2 : 9223372034707292160 < b
    · rw [if_pos h2]
      by_cases h3 : (18446744069414584321 + (2 ^ 64 - b)) % 2 ^ 64 ≤ a
      · simp only [if_pos h3]; omega
      · simp only [if_neg h3]; omega
    · rw [if_neg h2]; omega
  · rw [if_neg h1]
    by_cases h3 : b < (18446744069414584321 + (2 ^ 64 - a)) % 2 ^ 64
    · simp only [if_pos h3]; omega
    · simp only [if_neg h3]; omega

theorem sub_eq {a b : Nat} (ha : a < P) (hb : b < P) : sub a b = (a + (P - b)) % P := by
  have hP : P = 18446744069414584321 := rfl
  unfold sub wsub
  generalize P = p at *
  subst hP
  by_cases h1 : b ≤ a
  · rw [if_pos h1]; omega
  · rw [if_neg h1]; omega

theorem add_lt {a b : Nat} (ha : a < P) (hb : b < P) : add a b < P := by
  rw [add_eq ha hb]; exact Nat.mod_lt _ (by decide)

theorem sub_lt {a b : Nat} (ha : a < P) (hb : b < P) : sub a b < P := by
  rw [sub_eq ha hb]; exact Nat.mod_lt _ (by decide)

theorem add_cast {a b : Nat} (ha : a < P) (hb : b < P) : ((add a b : Nat) : ZMod P) = a + b := by
  rw [add_eq ha hb, ZMod.natCast_mod]; push_cast; rfl

theorem sub_cast {a b : Nat} (ha : a < P) (hb : b < P) : ((sub a b : Nat) : ZMod P) = a - b := by
  rw [sub_eq ha hb, ZMod.natCast_mod, Nat.cast_add, Nat.cast_sub hb.le, ZMod.natCast_self]; ring

/-- Products of halves stay below the prime. -/
theorem half_mul {x y : Nat} (hx : x < 2 ^ 32) (hy : y < 2 ^ 32) : wmul x y = x * y ∧ x * y < P := by
  have h : x * y ≤ (2 ^ 32 - 1) * (2 ^ 32 - 1) := Nat.mul_le_mul (by omega) (by omega)
  have h2 : x * y < P := lt_of_le_of_lt h (by decide)
  exact ⟨Nat.mod_eq_of_lt (lt_trans h2 (by decide)), h2⟩

theorem shl_half {x : Nat} (hx : x < 2 ^ 32) : wshl x 32 = x * 2 ^ 32 ∧ x * 2 ^ 32 < P := by
  unfold wshl P; omega

theorem mul_spec {a b : Nat} (ha : a < P) (hb : b < P) : mul a b < P ∧ ((mul a b : Nat) : ZMod P) = a * b := by
  unfold mul
  have a64 : a < 2 ^ 64 := lt_trans ha (by decide)
  have b64 : b < 2 ^ 64 := lt_trans hb (by decide)
  have ha0 : a % 2 ^ 32 < 2 ^ 32 := Nat.mod_lt _ (by decide)
  have hb0 : b % 2 ^ 32 < 2 ^ 32 := Nat.mod_lt _ (by decide)
  have ha1 : a / 2 ^ 32 < 2 ^ 32 := by omega
  have hb1 : b / 2 ^ 32 < 2 ^ 32 := by omega
  have hae : a = a / 2 ^ 32 * 2 ^ 32 + a % 2 ^ 32 := by omega
  have hbe : b = b / 2 ^ 32 * 2 ^ 32 + b % 2 ^ 32 := by omega
  generalize a % 2 ^ 32 = a0 at *
  generalize b % 2 ^ 32 = b0 at *
  generalize a / 2 ^ 32 = a1 at *
  generalize b / 2 ^ 32 = b1 at *
  obtain ⟨e1, l1⟩ := half_mul ha0 hb0
  obtain ⟨e2, l2⟩ := half_mul ha0 hb1
  obtain ⟨e3, l3⟩ := half_mul ha1 hb0
  obtain ⟨e4, l4⟩ := half_mul ha1 hb1
  simp only [e1, e2, e3, e4]
  have r1 := add_lt l4 l3
  have c1 := add_cast l4 l3
  have r2 := add_lt r1 l2
  have c2 := add_cast r1 l2
  have r3 := sub_lt l1 l4
  have c3 := sub_cast l1 l4
  have hx : add (add (a1 * b1) (a1 * b0)) (a0 * b1) < 2 ^ 64 := lt_trans r2 (by decide)
  generalize add (add (a1 * b1) (a1 * b0)) (a0 * b1) = x at *
  have hx0 : x % 2 ^ 32 < 2 ^ 32 := Nat.mod_lt _ (by decide)
  have hx1 : x / 2 ^ 32 < 2 ^ 32 := by omega
  have hxe : x = x / 2 ^ 32 * 2 ^ 32 + x % 2 ^ 32 := by omega
  generalize x % 2 ^ 32 = x0 at *
  generalize x / 2 ^ 32 = x1 at *
  obtain ⟨e5, l5⟩ := shl_half hx0
  obtain ⟨e6, l6⟩ := shl_half hx1
  simp only [e5, e6]
  have hx1' : x1 < P := lt_trans hx1 (by decide)
  have r4 := add_lt l6 l5
  have c4 := add_cast l6 l5
  have r5 := sub_lt r4 hx1'
  have c5 := sub_cast r4 hx1'
  have r6 := add_lt r5 r3
  have c6 := add_cast r5 r3
  refine ⟨r6, ?_⟩
  rw [c6, c5, c4, c3]
  have hxc : (x : ZMod P) = x1 * 2 ^ 32 + x0 := by rw [hxe]; push_cast; ring
  have hac : (a : ZMod P) = a1 * 2 ^ 32 + a0 := by rw [hae]; push_cast; ring
  have hbc : (b : ZMod P) = b1 * 2 ^ 32 + b0 := by rw [hbe]; push_cast; ring
  have h64 : (2 : ZMod P) ^ 64 - 2 ^ 32 + 1 = 0 := by
    have h : ((18446744069414584321 : Nat) : ZMod P) = 0 := ZMod.natCast_self P
    have : ((18446744069414584321 : Nat) : ZMod P) = (2 : ZMod P) ^ 64 - 2 ^ 32 + 1 := by push_cast; norm_num
    rw [← this, h]
  rw [c1] at c2
  rw [hxc] at c2
  rw [hac, hbc]
  push_cast at c2 ⊢
  linear_combination (2 : ZMod P) ^ 32 * c2 - ((x1 : ZMod P) + a1 * b1) * h64

theorem eq_of_cast {x y : Nat} (hx : x < P) (h : (x : ZMod P) = y) : x = y % P := by
  have := (ZMod.natCast_eq_natCast_iff x y P).1 h
  rw [Nat.ModEq, Nat.mod_eq_of_lt hx] at this
  exact this

theorem mul_eq {a b : Nat} (ha : a < P) (hb : b < P) : mul a b = a * b % P := by
  obtain ⟨h1, h2⟩ := mul_spec ha hb
  exact eq_of_cast h1 (by rw [h2]; push_cast; rfl)

theorem powLoop_eq (fuel : Nat) : ∀ p a b, p < P → a < P → b ≤ fuel →
    powLoop fuel p a b < P ∧ ((powLoop fuel p a b : Nat) : ZMod P) = p * (a : ZMod P) ^ b := by
  induction fuel with
  | zero =>
    intro p a b hp ha hb
    have : b = 0 := by omega
    subst this
    exact ⟨hp, by simp [powLoop]⟩
  | succ fuel ih =>
    intro p a b hp ha hb
    rw [powLoop]
    by_cases h0 : b = 0
    · subst h0; simp only [if_true]; exact ⟨hp, by simp⟩
    rw [if_neg h0]
    by_cases h2 : b % 2 = 0
    · rw [if_pos h2]
      obtain ⟨m1, m2⟩ := mul_spec ha ha
      obtain ⟨r1, r2⟩ := ih p (mul a a) (b / 2) hp m1 (by omega)
      refine ⟨r1, ?_⟩
      rw [r2, m2, ← pow_two, ← pow_mul]
      congr 2; omega
    · rw [if_neg h2]
      obtain ⟨m1, m2⟩ := mul_spec hp ha
      obtain ⟨r1, r2⟩ := ih (mul p a) a (b - 1) m1 ha (by omega)
      refine ⟨r1, ?_⟩
      rw [r2, m2, mul_assoc, ← pow_succ']
      congr 2; omega

theorem pow_eq {a b : Nat} (ha : a < P) : pow a b = a ^ b % P := by
  obtain ⟨h1, h2⟩ := powLoop_eq b 1 a b (by decide) ha le_rfl
  unfold pow
  exact eq_of_cast h1 (by rw [h2]; push_cast; ring)

theorem once {x : Nat} (hx : x < 2 ^ 64) : (if x < P then x else wsub x P) = x % P := by
  have hP : P = 18446744069414584321 := rfl
  unfold wsub
  generalize P = p at *
  subst hP
  by_cases h : x < 18446744069414584321
  · rw [if_pos h]; omega
  · rw [if_neg h]; omega

theorem wsub_P {a : Nat} (ha : a < P) : wsub P a = if a = 0 then P else P - a := by
  have hP : P = 18446744069414584321 := rfl
  unfold wsub
  generalize P = p at *
  subst hP
  by_cases h : a = 0
  · rw [if_pos h]; omega
  · rw [if_neg h]; omega

theorem modInverse_range {a m x : Int} (hm : 0 < m) (h : ModArith.modInverse a m = some x) : 0 ≤ x ∧ x < m := by
  unfold ModArith.modInverse at h
  split at h
  · simp only [Option.some.injEq] at h
    subst h
    exact ⟨Int.emod_nonneg _ (by omega), Int.emod_lt_of_pos _ hm⟩
  · cases h

theorem P_pos : (0 : Int) < P := by
  have : 0 < P := by decide
  exact_mod_cast this

theorem P_lt : P < 2 ^ 64 := by decide

theorem rejoin_eq {x : Int} (h0 : 0 ≤ x) (hx : x < P) : rejoin x = x.toNat := by
  have h1 : x.toNat < 2 ^ 64 := lt_trans (show x.toNat < P by omega) P_lt
  unfold rejoin wadd wshl
  generalize x.toNat = y at *
  omega

theorem inv_eq {a : Nat} (ha : a < P) : inv a = (ModArith.modInverse a P).map Int.toNat := by
  have h64 : a < 2 ^ 64 := lt_trans ha P_lt
  have e : a / 2 ^ 32 % 2 ^ 32 * 2 ^ 32 + a % 2 ^ 32 = a := by omega
  unfold inv
  rw [e]
  cases h : ModArith.modInverse (a : Int) P with
  | none => simp only [Option.map_none]
  | some mr =>
    obtain ⟨h0, h1⟩ := modInverse_range P_pos h
    simp only [Option.map_some, rejoin_eq h0 h1]

end Verif.Gold
