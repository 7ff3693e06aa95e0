import Verif.GoldLemmas
import Verif.Props.Ir
import Verif.Props.ModArith

/-!
# C80: with the prime `goldilocks`, the C++ program computes what the compiler computes

The compiler folds constants with `modular_arithmetic.rs`; the generated program uses `goldilocks/fr.hpp`.  `Props.Ir.prime P` has the
compiler's functions for each operator (`none` where they report an error or abort).
-/

namespace Verif.Props.Gold

set_option linter.unusedSimpArgs false
set_option linter.unusedVariables false

open Verif.Ir Verif.Gold Verif.Props.Ir

theorem toIntP {a : Nat} (ha : a < P) : (0 : Int) ≤ a ∧ (a : Int) < P := ⟨by omega, by exact_mod_cast ha⟩

theorem signed {a : Nat} (ha : a < P) :
    Props.ModArith.IsSigned P a (if a ≤ half then (a : Int) else (a : Int) - P) := by
  have hP : P = 18446744069414584321 := rfl
  have hH : half = 9223372034707292160 := rfl
  generalize P = p at *
  generalize half = h at *
  subst hP hH
  unfold Props.ModArith.IsSigned
  split
  · exact ⟨Int.ModEq.refl _, by push_cast; omega, by push_cast; omega⟩
  · exact ⟨by simp [Int.ModEq], by push_cast; omega, by push_cast; omega⟩

theorem norm_of {a : Nat} (ha : a < P) : ModArith.normalize (a : Int) P = if a = 0 then 0 else 1 := by
  rw [ModArith.normalize_eq _ P_pos, Int.emod_eq_of_lt (toIntP ha).1 (toIntP ha).2]
  by_cases h : a = 0 <;> simp [h]

theorem bits_P : Props.ModArith.NumBits P 64 := by
  unfold Props.ModArith.NumBits
  have hP : P = 18446744069414584321 := rfl
  rw [hP]
  constructor <;> norm_num


/-- From an equation of natural numbers to the form of the theorem. -/
theorem fin {v : Int} {x : Nat} {r : Option Nat} (e : v = (x : Int)) (hx : x < P) (hr : r = some x) :
    0 ≤ v ∧ v < P ∧ r = some v.toNat := by
  subst e
  exact ⟨(toIntP hx).1, (toIntP hx).2, by simp [hr]⟩

theorem modP (x : Nat) : ModArith.modulus (x : Int) P = ((x % P : Nat) : Int) := by
  rw [ModArith.modulus_eq_emod _ P_pos]; push_cast; rfl

theorem modP_lt (x : Nat) : x % P < P := Nat.mod_lt _ (by decide)

theorem bit_lt (c : Bool) : bit c < P := by
  unfold bit; split <;> decide

theorem shift_left_small {a b : Nat} {v : Int} (ha : a < P) (hb : b ≤ half) (h : ModArith.shiftL a b P = .ok v) :
    v = (shlSmall a b : Int) ∧ shlSmall a b < P := by
  have hb64 : b < 2 ^ 64 := lt_of_le_of_lt hb (by decide)
  have h2b : 2 * (b : Int) ≤ P := by
    have : 2 * b ≤ 2 * half := by omega
    have h3 : 2 * half ≤ P := by decide
    exact_mod_cast le_trans this h3
  rw [Props.ModArith.C08_shiftL_small a P b 64 P_pos (toIntP ha) bits_P h2b hb64] at h
  simp only [Except.ok.injEq] at h
  unfold shlSmall
  by_cases h64 : 64 ≤ b
  · rw [if_pos h64]
    obtain ⟨k, rfl⟩ := Nat.exists_eq_add_of_le h64
    have : (a : Int) * 2 ^ (64 + k) % 2 ^ 64 = 0 := by
      rw [pow_add, mul_left_comm]; exact Int.mul_emod_right _ _
    rw [this] at h
    exact ⟨by rw [← h]; simp, by decide⟩
  · rw [if_neg h64]
    have hlt : wshl a b < 2 ^ 64 := Nat.mod_lt _ (by decide)
    have e := once hlt
    simp only [e]
    refine ⟨?_, modP_lt _⟩
    rw [← h]
    unfold wshl
    push_cast
    rfl

theorem shift_right_small {a b : Nat} {v : Int} (ha : a < P) (hb : b ≤ half) (h : ModArith.shiftR a b P = .ok v) :
    v = (shrSmall a b : Int) ∧ shrSmall a b < P := by
  have hb64 : b < 2 ^ 64 := lt_of_le_of_lt hb (by decide)
  have h2b : 2 * (b : Int) ≤ P := by
    have : 2 * b ≤ 2 * half := by omega
    have h3 : 2 * half ≤ P := by decide
    exact_mod_cast le_trans this h3
  rw [(Props.ModArith.C08_shiftR_small a P b P_pos (toIntP ha) h2b hb64).1] at h
  simp only [Except.ok.injEq] at h
  unfold shrSmall
  by_cases h64 : 64 ≤ b
  · rw [if_pos h64]
    have h1 : a < 2 ^ b := lt_of_lt_of_le (lt_trans ha P_lt) (Nat.pow_le_pow_right (by decide) h64)
    have h2 : a / 2 ^ b = 0 := Nat.div_eq_of_lt h1
    refine ⟨?_, by decide⟩
    rw [← h, ← h2]; push_cast; rfl
  · rw [if_neg h64]
    refine ⟨by rw [← h]; push_cast; rfl, lt_of_le_of_lt (Nat.div_le_self _ _) ha⟩

theorem back {b : Nat} (hb : b < P) (h : half < b) : wsub P b = P - b ∧ P - b ≤ half ∧ (P : Int) < 2 * b ∧ ((P - b : Nat) : Int) = P - b := by
  have h1 := wsub_P hb
  have hP : P = 18446744069414584321 := rfl
  have hH : half = 9223372034707292160 := rfl
  have hb0 : b ≠ 0 := by omega
  rw [if_neg hb0] at h1
  refine ⟨h1, by omega, ?_, by push_cast [Nat.cast_sub hb.le]; rfl⟩
  have : P < 2 * b := by omega
  exact_mod_cast this

theorem mul_case {a b : Nat} {v : Int} (ha : a < P) (hb : b < P) (h : (prime P).inf .mul a b = some v) :
    0 ≤ v ∧ v < P ∧ infixOp .mul a b = some v.toNat := by
  simp only [prime, Option.some.injEq] at h
  refine fin (x := a * b % P) ?_ (modP_lt _) (by simp only [infixOp, mul_eq ha hb])
  rw [← h, ← modP]; unfold ModArith.mul; push_cast; rfl

theorem add_case {a b : Nat} {v : Int} (ha : a < P) (hb : b < P) (h : (prime P).inf .add a b = some v) :
    0 ≤ v ∧ v < P ∧ infixOp .add a b = some v.toNat := by
  simp only [prime, Option.some.injEq] at h
  refine fin (x := (a + b) % P) ?_ (modP_lt _) (by simp only [infixOp, add_eq ha hb])
  rw [← h, ← modP]; unfold ModArith.add; push_cast; rfl

theorem sub_case {a b : Nat} {v : Int} (ha : a < P) (hb : b < P) (h : (prime P).inf .sub a b = some v) :
    0 ≤ v ∧ v < P ∧ infixOp .sub a b = some v.toNat := by
  simp only [prime, Option.some.injEq] at h
  refine fin (x := (a + (P - b)) % P) ?_ (modP_lt _) (by simp only [infixOp, sub_eq ha hb])
  rw [← h, ← modP]; unfold ModArith.sub
  apply ModArith.modulus_congr P_pos
  push_cast [Nat.cast_sub hb.le]
  have : (a : Int) + (P - b) = (a - b) + P := by ring
  rw [this]; simp [Int.ModEq]

theorem div_case {a b : Nat} {v : Int} (ha : a < P) (hb : b < P) (h : (prime P).inf .div a b = some v) :
    0 ≤ v ∧ v < P ∧ infixOp .div a b = some v.toNat := by
  simp only [prime, res] at h
  unfold ModArith.div at h
  cases hi : ModArith.modInverse (b : Int) P with
  | none => rw [hi] at h; simp at h
  | some i =>
    rw [hi] at h
    simp only [Option.some.injEq] at h
    obtain ⟨i0, i1⟩ := modInverse_range P_pos hi
    obtain ⟨n, rfl⟩ := Int.eq_ofNat_of_zero_le i0
    have hn : n < P := by exact_mod_cast i1
    refine fin (x := a * n % P) ?_ (modP_lt _) ?_
    · rw [← h, ← modP]; unfold ModArith.mul; push_cast; rfl
    · simp only [infixOp, div, inv_eq hb, hi, Option.map_some, Int.toNat_natCast, mul_eq ha hn]

theorem pow_case {a b : Nat} {v : Int} (ha : a < P) (hb : b < P) (h : (prime P).inf .pow a b = some v) :
    0 ≤ v ∧ v < P ∧ infixOp .pow a b = some v.toNat := by
  simp only [prime, res] at h
  obtain ⟨r, h1, ⟨h2, h3⟩, h4⟩ := Props.ModArith.C05_pow a b P (by decide)
  rw [h1] at h
  simp only [Option.some.injEq] at h
  subst h
  obtain ⟨n, rfl⟩ := Int.eq_ofNat_of_zero_le h2
  have hn : n < P := by exact_mod_cast h3
  refine fin (x := a ^ b % P) ?_ (modP_lt _) (by simp only [infixOp, pow_eq ha])
  have := eq_of_cast (x := n) (y := a ^ b) hn (by push_cast at h4 ⊢; exact h4)
  rw [← this]

theorem idiv_of {a b : Nat} {p : Int} (ha : (a : Int) < p) (hb : (b : Int) < p) :
    ModArith.idiv a b p = if b = 0 then .error .divisionByZero else .ok ((a / b : Nat) : Int) := by
  unfold ModArith.idiv
  rw [ModArith.modulus_of_canonical (by omega) ha, ModArith.modulus_of_canonical (by omega) hb]
  by_cases hb0 : b = 0
  · subst hb0; simp
  · have : ¬ (b : Int) = 0 := by omega
    simp only [if_neg this, if_neg hb0]
    rw [Int.tdiv_eq_ediv_of_nonneg (by omega)]; push_cast; rfl

theorem modOp_of {a b : Nat} {p : Int} (ha : (a : Int) < p) (hb : (b : Int) < p) :
    ModArith.modOp a b p = if b = 0 then .error .panic else .ok ((a % b : Nat) : Int) := by
  unfold ModArith.modOp ModArith.modulusR
  rw [ModArith.modulus_of_canonical (by omega) ha, ModArith.modulus_of_canonical (by omega) hb]
  by_cases hb0 : b = 0
  · subst hb0; simp
  · have : ¬ (b : Int) = 0 := by omega
    simp only [if_neg this, if_neg hb0]
    rw [ModArith.modulus_eq_emod _ (by omega)]; push_cast; rfl

theorem prime_intDiv (p a b : Int) : (prime p).inf .intDiv a b = res (ModArith.idiv a b p) := rfl
theorem prime_mod (p a b : Int) : (prime p).inf .mod a b = res (ModArith.modOp a b p) := rfl

theorem intDiv_case {a b : Nat} {v : Int} (ha : a < P) (hb : b < P) (h : (prime P).inf .intDiv a b = some v) :
    0 ≤ v ∧ v < P ∧ infixOp .intDiv a b = some v.toNat := by
  rw [prime_intDiv, idiv_of (toIntP ha).2 (toIntP hb).2] at h
  by_cases hb0 : b = 0
  · rw [if_pos hb0] at h; simp [res] at h
  · rw [if_neg hb0] at h
    simp only [res, Option.some.injEq] at h
    exact fin (x := a / b) h.symm (lt_of_le_of_lt (Nat.div_le_self _ _) ha) (by simp only [infixOp, idiv, if_neg hb0])

theorem mod_case {a b : Nat} {v : Int} (ha : a < P) (hb : b < P) (h : (prime P).inf .mod a b = some v) :
    0 ≤ v ∧ v < P ∧ infixOp .mod a b = some v.toNat := by
  rw [prime_mod, modOp_of (toIntP ha).2 (toIntP hb).2] at h
  by_cases hb0 : b = 0
  · rw [if_pos hb0] at h; simp [res] at h
  · rw [if_neg hb0] at h
    simp only [res, Option.some.injEq] at h
    exact fin (x := a % b) h.symm (lt_of_le_of_lt (Nat.mod_le _ _) ha) (by simp only [infixOp, mod, if_neg hb0])

theorem shiftL_case {a b : Nat} {v : Int} (ha : a < P) (hb : b < P) (h : (prime P).inf .shiftL a b = some v) :
    0 ≤ v ∧ v < P ∧ infixOp .shiftL a b = some v.toNat := by
  simp only [prime, res] at h
  by_cases hh : half < b
  · obtain ⟨w1, w2, w3, w4⟩ := back hb hh
    rw [(Props.ModArith.C08_dual a b P P_pos w3).1, ← w4] at h
    cases hs : ModArith.shiftR a (P - b : Nat) P with
    | error e => rw [hs] at h; simp at h
    | ok w =>
      rw [hs] at h
      simp only [Option.some.injEq] at h
      subst h
      obtain ⟨e1, e2⟩ := shift_right_small ha w2 hs
      exact fin e1 e2 (by simp only [infixOp, shl, if_pos hh, w1])
  · cases hs : ModArith.shiftL a b P with
    | error e => rw [hs] at h; simp at h
    | ok w =>
      rw [hs] at h
      simp only [Option.some.injEq] at h
      subst h
      obtain ⟨e1, e2⟩ := shift_left_small ha (by omega) hs
      exact fin e1 e2 (by simp only [infixOp, shl, if_neg hh])

theorem shiftR_case {a b : Nat} {v : Int} (ha : a < P) (hb : b < P) (h : (prime P).inf .shiftR a b = some v) :
    0 ≤ v ∧ v < P ∧ infixOp .shiftR a b = some v.toNat := by
  simp only [prime, res] at h
  by_cases hh : half < b
  · obtain ⟨w1, w2, w3, w4⟩ := back hb hh
    rw [(Props.ModArith.C08_dual a b P P_pos w3).2, ← w4] at h
    cases hs : ModArith.shiftL a (P - b : Nat) P with
    | error e => rw [hs] at h; simp at h
    | ok w =>
      rw [hs] at h
      simp only [Option.some.injEq] at h
      subst h
      obtain ⟨e1, e2⟩ := shift_left_small ha w2 hs
      exact fin e1 e2 (by simp only [infixOp, shr, if_pos hh, w1])
  · cases hs : ModArith.shiftR a b P with
    | error e => rw [hs] at h; simp at h
    | ok w =>
      rw [hs] at h
      simp only [Option.some.injEq] at h
      subst h
      obtain ⟨e1, e2⟩ := shift_right_small ha (by omega) hs
      exact fin e1 e2 (by simp only [infixOp, shr, if_neg hh])

theorem one_lt_P : (1 : Int) < P := by
  have : 1 < P := by decide
  exact_mod_cast this

/-- The signed value of an element. -/
def sval (a : Nat) : Int := if a ≤ half then (a : Int) else (a : Int) - P

theorem order {a b : Nat} (ha : a < P) (hb : b < P) :
    lt a b = (if sval a < sval b then 1 else 0) ∧ leq a b = (if sval a ≤ sval b then 1 else 0) ∧
    gt a b = (if sval a > sval b then 1 else 0) ∧ geq a b = (if sval a ≥ sval b then 1 else 0) ∧
    (sval a = sval b ↔ a = b) := by
  have hP : P = 18446744069414584321 := rfl
  have hH : half = 9223372034707292160 := rfl
  unfold lt leq gt geq sval bit
  generalize P = p at *
  generalize half = hf at *
  subst hP hH
  by_cases h1 : a ≤ 9223372034707292160 <;> by_cases h2 : b ≤ 9223372034707292160 <;>
    simp only [h1, h2, if_true, if_false, decide_eq_true_eq] <;>
    refine ⟨?_, ?_, ?_, ?_, ?_⟩ <;> first | (split <;> split <;> omega) | (split <;> omega) | omega

theorem cmp_case {o : Infix} {a b : Nat} {v : Int} (ha : a < P) (hb : b < P)
    (ho : o = .lesser ∨ o = .lesserEq ∨ o = .greater ∨ o = .greaterEq ∨ o = .eq ∨ o = .notEq)
    (h : (prime P).inf o a b = some v) : 0 ≤ v ∧ v < P ∧ infixOp o a b = some v.toNat := by
  obtain ⟨c1, c2, c3, c4, c5, c6⟩ := Props.ModArith.C06_comparisons a b P _ _ one_lt_P (signed ha) (signed hb)
  obtain ⟨o1, o2, o3, o4, o5⟩ := order ha hb
  change _ = if sval a < sval b then _ else _ at c1
  change _ = if sval a ≤ sval b then _ else _ at c2
  change _ = if sval a > sval b then _ else _ at c3
  change _ = if sval a ≥ sval b then _ else _ at c4
  change _ = if sval a = sval b then _ else _ at c5
  change _ = if sval a ≠ sval b then _ else _ at c6
  have two : ∀ (c : Prop) [Decidable c], (if c then 1 else 0 : Nat) < P := by intro c _; split <;> decide
  rcases ho with rfl | rfl | rfl | rfl | rfl | rfl <;> simp only [prime, Option.some.injEq] at h
  · exact fin (by rw [← h, c1]; push_cast; rfl) (two _) (by simp only [infixOp, o1])
  · exact fin (by rw [← h, c2]; push_cast; rfl) (two _) (by simp only [infixOp, o2])
  · exact fin (by rw [← h, c3]; push_cast; rfl) (two _) (by simp only [infixOp, o3])
  · exact fin (by rw [← h, c4]; push_cast; rfl) (two _) (by simp only [infixOp, o4])
  · refine fin (x := if a = b then 1 else 0) (by rw [← h, c5]; simp only [o5]; push_cast; rfl) (two _) ?_
    simp only [infixOp, Verif.Gold.eq, bit, decide_eq_true_eq]
  · refine fin (x := if a ≠ b then 1 else 0) (by rw [← h, c6]; simp only [ne_eq, o5]; push_cast; rfl) (two _) ?_
    simp only [infixOp, Verif.Gold.neq, bit, decide_eq_true_eq]

theorem logic_case {o : Infix} {a b : Nat} {v : Int} (ha : a < P) (hb : b < P) (ho : o = .boolOr ∨ o = .boolAnd)
    (h : (prime P).inf o a b = some v) : 0 ≤ v ∧ v < P ∧ infixOp o a b = some v.toNat := by
  have two : ∀ (c : Prop) [Decidable c], (if c then 0 else 1 : Nat) < P := by intro c _; split <;> decide
  rcases ho with rfl | rfl <;>
    simp only [prime, Option.some.injEq, ModArith.boolOr, ModArith.boolAnd, norm_of ha, norm_of hb] at h
  · refine fin (x := if a = 0 ∧ b = 0 then 0 else 1) ?_ (two _) (by simp only [infixOp, lor])
    rw [← h]
    by_cases h1 : a = 0 <;> by_cases h2 : b = 0 <;> simp [h1, h2]
  · refine fin (x := if a = 0 ∨ b = 0 then 0 else 1) ?_ (two _) (by simp only [infixOp, land])
    rw [← h]
    by_cases h1 : a = 0 <;> by_cases h2 : b = 0 <;> simp [h1, h2]

theorem bits_case {o : Infix} {a b : Nat} {v : Int} (ha : a < P) (hb : b < P)
    (ho : o = .bitOr ∨ o = .bitAnd ∨ o = .bitXor)
    (h : (prime P).inf o a b = some v) : 0 ≤ v ∧ v < P ∧ infixOp o a b = some v.toNat := by
  have a64 : a < 2 ^ 64 := lt_trans ha P_lt
  have b64 : b < 2 ^ 64 := lt_trans hb P_lt
  rcases ho with rfl | rfl | rfl <;> simp only [prime, Option.some.injEq] at h
  · refine fin (x := (a ||| b) % P) ?_ (modP_lt _) ?_
    · rw [← h, ← modP]; rfl
    · simp only [infixOp, bor, once (Nat.or_lt_two_pow a64 b64)]
  · have hlt : a &&& b < P := lt_of_le_of_lt Nat.and_le_left ha
    refine fin (x := a &&& b) ?_ hlt (by simp only [infixOp, band])
    have : (a &&& b) % P = a &&& b := Nat.mod_eq_of_lt hlt
    rw [← h, ← this, ← modP]; rfl
  · refine fin (x := (a ^^^ b) % P) ?_ (modP_lt _) ?_
    · rw [← h, ← modP]; rfl
    · simp only [infixOp, bxor, once (Nat.xor_lt_two_pow a64 b64)]

theorem shift_error (x k p : Int) (e : ModArith.Fail)
    (h : ModArith.shiftL x k p = .error e ∨ ModArith.shiftR x k p = .error e) : e = .divisionByZero := by
  have small : ∀ (b : Bool) (k : Int), k ≤ p.tdiv 2 → ModArith.shift b x k p = .error e → e = .divisionByZero := by
    intro b k hk h
    rw [ModArith.shift_small _ _ _ _ hk] at h
    cases hu : ModArith.toUsize k with
    | none => rw [hu] at h; cases h; rfl
    | some n => rw [hu] at h; cases b <;> simp at h
  have all : ∀ b, ModArith.shift b x k p = .error e → e = .divisionByZero := by
    intro b h
    by_cases hk : k ≤ p.tdiv 2
    · exact small b k hk h
    · rw [ModArith.shift_big _ _ _ _ hk] at h
      refine small _ _ ?_ h
      have := Int.mul_tdiv_add_tmod p 2
      have h2 : p.tmod 2 < 2 := Int.tmod_lt_of_pos _ (by decide)
      omega
  rcases h with h | h
  · exact all true h
  · exact all false h

theorem shift_ok {b : Nat} (hb : b < P) (a : Int) (r : ModArith.Res Int)
    (hr : r = ModArith.shiftL a b P ∨ r = ModArith.shiftR a b P) :
    (match r with | .ok v => some v | .error _ => none) ≠ none := by
  obtain ⟨e1, e2, p1, p2⟩ := Props.ModArith.C08_error_iff a b P P_pos
  have hb' := toIntP hb
  have hP : (P : Int) < 2 ^ 64 := by exact_mod_cast P_lt
  have hr' : ¬ (Props.ModArith.EffectiveAmount P b < 0 ∨ 2 ^ 64 ≤ Props.ModArith.EffectiveAmount P b) := by
    unfold Props.ModArith.EffectiveAmount
    split <;> omega
  cases h : r with
  | ok v => simp
  | error e =>
    exfalso
    have shape := shift_error a b P e
    rcases hr with hr | hr
    · rw [h] at hr
      cases shape (by rcases hr with hr; exact Or.inl hr.symm)
      exact hr' (e1.1 hr.symm)
    · rw [h] at hr
      cases shape (Or.inr hr.symm)
      exact hr' (e2.1 hr.symm)

/-- Operators with two operands: where the compiler's arithmetic has a result, the program computes the same element. -/
theorem C80_infix (o : Infix) (a b : Nat) (v : Int) (ha : a < P) (hb : b < P) (h : (prime P).inf o a b = some v) :
    0 ≤ v ∧ v < P ∧ infixOp o a b = some v.toNat := by
  cases o with
  | mul => exact mul_case ha hb h
  | div => exact div_case ha hb h
  | add => exact add_case ha hb h
  | sub => exact sub_case ha hb h
  | pow => exact pow_case ha hb h
  | intDiv => exact intDiv_case ha hb h
  | mod => exact mod_case ha hb h
  | shiftL => exact shiftL_case ha hb h
  | shiftR => exact shiftR_case ha hb h
  | lesserEq => exact cmp_case ha hb (by simp) h
  | greaterEq => exact cmp_case ha hb (by simp) h
  | lesser => exact cmp_case ha hb (by simp) h
  | greater => exact cmp_case ha hb (by simp) h
  | eq => exact cmp_case ha hb (by simp) h
  | notEq => exact cmp_case ha hb (by simp) h
  | boolOr => exact logic_case ha hb (by simp) h
  | boolAnd => exact logic_case ha hb (by simp) h
  | bitOr => exact bits_case ha hb (by simp) h
  | bitAnd => exact bits_case ha hb (by simp) h
  | bitXor => exact bits_case ha hb (by simp) h

/-- Operators with one operand. -/
theorem C80_prefix (o : Prefix) (a : Nat) (v : Int) (ha : a < P) (h : (prime P).pre o a = some v) :
    0 ≤ v ∧ v < P ∧ some (prefixOp o a) = some v.toNat := by
  cases o with
  | sub =>
    simp only [prime, Option.some.injEq] at h
    refine fin (x := (P - a) % P) ?_ (modP_lt _) ?_
    · rw [← h, ← modP]
      unfold ModArith.prefixSub ModArith.mul
      apply ModArith.modulus_congr P_pos
      push_cast [Nat.cast_sub ha.le]
      have : (P : Int) - a = a * -1 + P := by ring
      rw [this]; simp [Int.ModEq]
    · simp only [prefixOp, neg, Option.some.injEq]
      by_cases h0 : a = 0
      · rw [if_pos h0, h0, Nat.sub_zero, Nat.mod_self]
      · rw [if_neg h0, wsub_P ha, if_neg h0, Nat.mod_eq_of_lt (by omega)]
  | boolNot =>
    simp only [prime, Option.some.injEq, ModArith.not, norm_of ha] at h
    refine fin (x := if a = 0 then 1 else 0) ?_ (by split <;> decide) (by simp only [prefixOp, lnot])
    rw [← h]
    by_cases h1 : a = 0 <;> simp [h1]
  | complement =>
    simp only [prime, Option.some.injEq] at h
    have a64 : a < 2 ^ 64 := lt_trans ha P_lt
    rw [ModArith.complement_eq (toIntP ha).1 P_pos bits_P.1 bits_P.2] at h
    have hn : 2 ^ 64 - 1 - a < 2 ^ 64 := by omega
    refine fin (x := (2 ^ 64 - 1 - a) % P) ?_ (modP_lt _) ?_
    · rw [← h, ← modP, ModArith.modulus_eq_emod _ P_pos]
      congr 1
      omega
    · simp only [prefixOp, bnot, once hn]

/-- Where the compiler's arithmetic has no result (an inverse that does not exist, a zero divisor), neither does the program's. -/
theorem C80_undefined (o : Infix) (a b : Nat) (ha : a < P) (hb : b < P) (h : (prime P).inf o a b = none) :
    infixOp o a b = none ∧ (o = .div ∨ o = .intDiv ∨ o = .mod) := by
  cases o with
  | div =>
    simp only [prime, res] at h
    unfold ModArith.div at h
    cases hi : ModArith.modInverse (b : Int) P with
    | none => exact ⟨by simp only [infixOp, div, inv_eq hb, hi, Option.map_none], by simp⟩
    | some i => rw [hi] at h; simp at h
  | pow =>
    simp only [prime, res] at h
    obtain ⟨r, h1, _, _⟩ := Props.ModArith.C05_pow a b P (by decide)
    rw [h1] at h; simp at h
  | intDiv =>
    rw [prime_intDiv, idiv_of (toIntP ha).2 (toIntP hb).2] at h
    by_cases hb0 : b = 0
    · exact ⟨by simp only [infixOp, idiv, if_pos hb0], by simp⟩
    · rw [if_neg hb0] at h; simp [res] at h
  | mod =>
    rw [prime_mod, modOp_of (toIntP ha).2 (toIntP hb).2] at h
    by_cases hb0 : b = 0
    · exact ⟨by simp only [infixOp, mod, if_pos hb0], by simp⟩
    · rw [if_neg hb0] at h; simp [res] at h
  | shiftL =>
    simp only [prime, res] at h
    exact absurd h (shift_ok hb _ _ (Or.inl rfl))
  | shiftR =>
    simp only [prime, res] at h
    exact absurd h (shift_ok hb _ _ (Or.inr rfl))
  | _ => simp [prime] at h

/-- `if`, `while`, `assert` and `===` on arrays: the truth value. -/
theorem C80_truthy (a : Nat) : Verif.Gold.isTrue a = (prime P).truthy a := by
  simp [Verif.Gold.isTrue, prime]

/-- Indices.  The smallest number of 32 bits is left out: see `C80_toInt_edge`. -/
theorem C80_toInt (a : Nat) (z : Int) (ha : a < P) (h : (prime P).toInt a = some z) (hz : z ≠ -2 ^ 31) :
    Verif.Gold.toInt a = some z := by
  simp only [prime] at h
  have hP : P = 18446744069414584321 := rfl
  have hH : half = 9223372034707292160 := rfl
  unfold Verif.Gold.toInt toInt32 wsub
  generalize P = p at *
  generalize half = hf at *
  subst hP hH
  by_cases h1 : 0 ≤ (a : Int) ∧ (a : Int) < 2 ^ 31
  · rw [if_pos h1, Option.some.injEq] at h
    have h2 : ¬ 9223372034707292160 < a := by omega
    have h3 : a % 2 ^ 32 < 2 ^ 31 := by omega
    rw [if_neg h2, if_pos h3, Option.some.injEq]
    omega
  · rw [if_neg h1] at h
    by_cases h4 : (a : Int) < (18446744069414584321 : Nat) ∧ -2 ^ 31 ≤ (a : Int) - (18446744069414584321 : Nat)
    · rw [if_pos h4, Option.some.injEq] at h
      push_cast at h4 h
      have h2 : 9223372034707292160 < a := by omega
      have h3 : (18446744069414584321 + (2 ^ 64 - a)) % 2 ^ 64 = 18446744069414584321 - a := by omega
      rw [if_pos h2, h3]
      have h5 : (18446744069414584321 - a) % 2 ^ 32 < 2 ^ 31 := by omega
      simp only [if_pos h5]
      have h6 : ¬ (((18446744069414584321 - a) % 2 ^ 32 : Nat) : Int) = -2 ^ 31 := by omega
      rw [if_neg h6, Option.some.injEq]
      omega
    · rw [if_neg h4] at h; cases h

/-- At `-2^31` the program negates the smallest `int`. -/
theorem C80_toInt_edge : Verif.Gold.toInt (P - 2 ^ 31) = none ∧ (P - 2 ^ 31 < P) := by decide +kernel

/-- `==` and `===` on several elements. -/
theorem C80_eqN (a b : Nat → Nat) (n : Nat) : eqN a b n = if (∀ i, i < n → a i = b i) then 1 else 0 := by
  induction n with
  | zero => simp [eqN]
  | succ n ih =>
    rw [eqN, ih]
    by_cases h : ∀ i, i < n → a i = b i
    · rw [if_pos h, if_neg (by decide)]
      by_cases hn : a n = b n
      · have : ∀ i, i < n + 1 → a i = b i := by
          intro i hi
          rcases Nat.lt_succ_iff_lt_or_eq.1 hi with h1 | h1
          · exact h i h1
          · subst h1; exact hn
        rw [if_pos this, if_neg (by simpa using hn)]
      · have : ¬ ∀ i, i < n + 1 → a i = b i := fun h => hn (h n (by omega))
        rw [if_neg this, if_pos hn]
    · have : ¬ ∀ i, i < n + 1 → a i = b i := fun h' => h fun i hi => h' i (by omega)
      rw [if_neg this, if_neg h, if_pos rfl]

/-- An operand near the prime, and one whose product with it does not fit in 64 bits. -/
example : infixOp .mul (P - 2) 12345678901234567890 = some (P - 2 * 12345678901234567890 % P) ∧
    infixOp .add (P - 2) (P - 5) = some (P - 7) ∧ infixOp .sub 3 10 = some (P - 7) ∧
    infixOp .div 1 2 = some 9223372034707292161 ∧ infixOp .pow 7 (P - 1) = some 1 ∧
    infixOp .shiftL (P - 1) 1 = some (2 ^ 64 - 2 ^ 33 ) ∧ infixOp .shiftL 1024 (P - 3) = some 128 ∧
    infixOp .lesser (P - 3) 5 = some 1 ∧ infixOp .intDiv 17 0 = none ∧ prefixOp .complement 0 = 2 ^ 32 - 2 ∧
    Verif.Gold.toInt (P - 4) = some (-4) := by
  decide +kernel

end Verif.Props.Gold
