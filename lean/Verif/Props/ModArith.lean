import Verif.ModArithLemmas

/-!
# Properties C01–C10: field arithmetic

Specification vocabulary used here: `Canonical p x` (representative in `[0,p)`), `Int.ModEq`, the ring `ZMod p`,
`IsSigned p x s` (`s` is the signed representative of `x`), bits via `Nat.testBit`.
-/

namespace Verif.Props.ModArith
open Verif.ModArith

/-- Spec: `x` is the representative of its class in `[0,p)`. -/
def Canonical (p x : Int) : Prop := 0 ≤ x ∧ x < p

/-- Spec: `s` is the representative of `x` with `-p/2 < s ≤ p/2`. -/
def IsSigned (p x s : Int) : Prop := s ≡ x [ZMOD p] ∧ -p < 2 * s ∧ 2 * s ≤ p

/-- Spec: truth value of a field element. -/
def Truthy (p x : Int) : Prop := ¬ x ≡ 0 [ZMOD p]

/-! ## C01 -/

theorem C01_add (a b p : Int) (hp : 0 < p) : Canonical p (add a b p) ∧ add a b p ≡ a + b [ZMOD p] :=
  ⟨⟨modulus_nonneg _ hp, modulus_lt _ hp⟩, modulus_modEq _ hp⟩

theorem C01_sub (a b p : Int) (hp : 0 < p) : Canonical p (sub a b p) ∧ sub a b p ≡ a - b [ZMOD p] :=
  ⟨⟨modulus_nonneg _ hp, modulus_lt _ hp⟩, modulus_modEq _ hp⟩

theorem C01_mul (a b p : Int) (hp : 0 < p) : Canonical p (mul a b p) ∧ mul a b p ≡ a * b [ZMOD p] :=
  ⟨⟨modulus_nonneg _ hp, modulus_lt _ hp⟩, modulus_modEq _ hp⟩

theorem C01_neg (a p : Int) (hp : 0 < p) : Canonical p (prefixSub a p) ∧ prefixSub a p ≡ -a [ZMOD p] := by
  refine ⟨⟨modulus_nonneg _ hp, modulus_lt _ hp⟩, ?_⟩
  have := modulus_modEq (a * -1) hp
  simpa [prefixSub, mul] using this

example : sub 2 5 257 = 254 ∧ mul (-3) 100 257 = 214 ∧ (0 : Int) < 257 := by decide

/-! ## C02 -/

/-- Division succeeds with the field quotient exactly when the divisor is a unit; otherwise it is the error value
`divisionByZero` (never a panic). -/
theorem C02_div (a b : Int) (p : Nat) (hp : 0 < p) :
    (IsUnit (b : ZMod p) → ∃ q, div a b p = .ok q ∧ Canonical p q ∧ (q : ZMod p) * b = a) ∧
    (¬ IsUnit (b : ZMod p) → div a b p = .error .divisionByZero) := by
  constructor
  · intro hu
    have h1 : (modInverse b p).isSome := (modInverse_isSome_iff _ _).2 ((gcd_eq_one_iff_isUnit _ _).2 hu)
    obtain ⟨x, hx⟩ := Option.isSome_iff_exists.1 h1
    have hq : div a b p = .ok (mul a x p) := by simp [div, hx]
    exact ⟨_, hq, ⟨modulus_nonneg _ (by exact_mod_cast hp), modulus_lt _ (by exact_mod_cast hp)⟩, div_ok_cast hp hq⟩
  · intro hu
    have h1 : modInverse b p = none := by
      rw [← Option.not_isSome_iff_eq_none]
      intro h
      exact hu ((gcd_eq_one_iff_isUnit _ _).1 ((modInverse_isSome_iff _ _).1 h))
    simp [div, h1]

/-- For a prime modulus the error occurs exactly for divisors that are zero modulo `p`. -/
theorem C02_div_prime (a b : Int) (p : Nat) (hp : p.Prime) :
    (div a b p = .error .divisionByZero ↔ b ≡ 0 [ZMOD p]) ∧
    (¬ b ≡ 0 [ZMOD p] → ∃ q, div a b p = .ok q ∧ Canonical p q ∧ q * b ≡ a [ZMOD p]) := by
  have hu := isUnit_iff_ne_zero_of_prime b p hp
  obtain ⟨h1, h2⟩ := C02_div a b p hp.pos
  have hz : (b ≡ 0 [ZMOD p]) ↔ b % p = 0 := by simp [Int.ModEq]
  constructor
  · constructor
    · intro h
      by_contra hb
      obtain ⟨q, hq, _⟩ := h1 (hu.2 (fun h' => hb (hz.2 h')))
      rw [hq] at h; cases h
    · intro h
      exact h2 (fun h' => (hu.1 h') (hz.1 h))
  · intro hb
    obtain ⟨q, hq, hc, hm⟩ := h1 (hu.2 (fun h' => hb (hz.2 h')))
    exact ⟨q, hq, hc, (ZMod.intCast_eq_intCast_iff _ _ _).1 (by push_cast; exact hm)⟩

example : div 7 10 257 = .ok 232 ∧ (232 : Int) * 10 ≡ 7 [ZMOD 257] ∧ ¬ (10 : Int) ≡ 0 [ZMOD 257] ∧
    div 7 257 257 = .error .divisionByZero := by decide +kernel

/-! ## C03 -/

theorem C03_idiv_mod (a b p : Int) (hp : 0 < p) (hb : ¬ b ≡ 0 [ZMOD p]) :
    ∃ q r, idiv a b p = .ok q ∧ modOp a b p = .ok r ∧
      a % p = q * (b % p) + r ∧ 0 ≤ r ∧ r < b % p ∧ 0 ≤ q ∧ q < p := by
  have hb' : b % p ≠ 0 := fun h => hb (by simpa [Int.ModEq] using h)
  have hb0 := Int.emod_nonneg b (show p ≠ 0 by omega)
  have hbp : 0 < b % p := by omega
  have ha0 := Int.emod_nonneg a (show p ≠ 0 by omega)
  have halt := Int.emod_lt_of_pos a hp
  refine ⟨(a % p) / (b % p), (a % p) % (b % p), ?_, ?_, ?_, Int.emod_nonneg _ hb', Int.emod_lt_of_pos _ hbp,
    Int.ediv_nonneg ha0 hb0, ?_⟩
  · unfold idiv
    simp only [modulus_eq_emod _ hp, if_neg hb']
    rw [Int.tdiv_eq_ediv_of_nonneg ha0]
  · unfold modOp modulusR
    simp only [modulus_eq_emod _ hp, if_neg hb', modulus_eq_emod _ hbp]
  · have := Int.emod_add_mul_ediv (a % p) (b % p)
    linarith [mul_comm (b % p) (a % p / (b % p))]
  · calc (a % p) / (b % p) ≤ a % p := Int.ediv_le_self _ ha0
      _ < p := halt

/-- `\` by zero is the error value. -/
theorem C03_idiv_zero (a b p : Int) (hp : 0 < p) (hb : b ≡ 0 [ZMOD p]) : idiv a b p = .error .divisionByZero := by
  have : b % p = 0 := by simpa [Int.ModEq] using hb
  unfold idiv
  simp [modulus_eq_emod _ hp, this]

example : idiv 100 7 257 = .ok 14 ∧ modOp 100 7 257 = .ok 2 ∧ ¬ (7 : Int) ≡ 0 [ZMOD 257] := by decide

/-! ## C04 -/

/-- Full claim: remainder by zero is the `divisionByZero` error.  It is false of the code for every operand: the
computation aborts. -/
theorem C04_mod_zero_violated (a b p : Int) (hp : 0 < p) (hb : b ≡ 0 [ZMOD p]) :
    modOp a b p = .error .panic ∧ modOp a b p ≠ .error .divisionByZero := by
  have : b % p = 0 := by simpa [Int.ModEq] using hb
  have h : modOp a b p = .error .panic := by
    unfold modOp modulusR
    simp [modulus_eq_emod _ hp, this]
  exact ⟨h, by rw [h]; decide⟩

/-- What does hold: no abort when the divisor is non-zero (missing: the zero divisor). -/
theorem C04_mod_nonzero_partial (a b p : Int) (hp : 0 < p) (hb : ¬ b ≡ 0 [ZMOD p]) :
    ∃ r, modOp a b p = .ok r ∧ Canonical p r := by
  obtain ⟨q, r, _, h2, _, h4, h5, _⟩ := C03_idiv_mod a b p hp hb
  exact ⟨r, h2, h4, lt_trans h5 (Int.emod_lt_of_pos _ hp)⟩

example : modOp 5 257 257 = .error .panic ∧ (257 : Int) ≡ 0 [ZMOD 257] := by decide

/-! ## C05 -/

theorem C05_pow (base : Int) (e : Nat) (p : Nat) (hp : 0 < p) :
    ∃ r, pow base e p = .ok r ∧ Canonical p r ∧ (r : ZMod p) = (base : ZMod p) ^ e := by
  refine ⟨modpow base e p, ?_, modpow_range base e (by exact_mod_cast hp), ?_⟩
  · simp [pow]
  · have := (ZMod.intCast_eq_intCast_iff _ _ _).2 (modpow_modEq base e p)
    rw [this]; push_cast; rfl

/-- The abort path: exactly the negative exponents. -/
theorem C05_pow_abort (base e p : Int) : pow base e p = .error .panic ↔ e < 0 := by
  unfold pow; split <;> simp_all

example : pow 3 200 257 = .ok 120 ∧ pow 5 0 257 = .ok 1 := by decide

/-! ## C06 -/

/-- The signed representative exists and is unique. -/
theorem C06_signed_exists_unique (p x : Int) (hp : 0 < p) : ∃! s, IsSigned p x s := by
  have h0 := Int.emod_nonneg x (show p ≠ 0 by omega)
  have h1 := Int.emod_lt_of_pos x hp
  refine ⟨comparableElement x p, ?_, ?_⟩
  · rw [comparableElement_eq x hp]
    refine ⟨?_, ?_⟩
    · split
      · simp [Int.ModEq]
      · exact Int.mod_modEq x p
    · split <;> omega
  · rintro s ⟨hs, hs1, hs2⟩
    have hs' : s % p = x % p := hs
    have h2 : comparableElement s p = comparableElement x p := (comparableElement_inj hp).2 hs'
    rw [← h2, comparableElement_eq s hp]
    by_cases hneg : s < 0
    · have : s % p = s + p := by
        rw [← Int.add_emod_right, Int.emod_eq_of_lt] <;> omega
      rw [this]; split <;> omega
    · rw [Int.emod_eq_of_lt (by omega) (by omega)]
      split <;> omega

theorem signed_eq {p x s : Int} (hp : 0 < p) (h : IsSigned p x s) : comparableElement x p = s := by
  obtain ⟨t, ht, hu⟩ := C06_signed_exists_unique p x hp
  have h1 : IsSigned p x (comparableElement x p) := by
    have h0 := Int.emod_nonneg x (show p ≠ 0 by omega)
    have h1 := Int.emod_lt_of_pos x hp
    rw [comparableElement_eq x hp]
    refine ⟨?_, ?_⟩
    · split
      · simp [Int.ModEq]
      · exact Int.mod_modEq x p
    · split <;> omega
  rw [hu _ h1, hu _ h]

/-- All six comparison operators agree with the integer order of the signed representatives. -/
theorem C06_comparisons (a b p s t : Int) (hp : 1 < p) (ha : IsSigned p a s) (hb : IsSigned p b t) :
    lesser a b p = (if s < t then 1 else 0) ∧
    lesserEq a b p = (if s ≤ t then 1 else 0) ∧
    greater a b p = (if s > t then 1 else 0) ∧
    greaterEq a b p = (if s ≥ t then 1 else 0) ∧
    eq a b p = (if s = t then 1 else 0) ∧
    notEq a b p = (if s ≠ t then 1 else 0) := by
  have hp0 : 0 < p := by omega
  have h1 := signed_eq hp0 ha
  have h2 := signed_eq hp0 hb
  have hl : lesser a b p = (if s < t then 1 else 0) := by unfold lesser; rw [h1, h2]
  have he : eq a b p = (if s = t then 1 else 0) := by
    unfold eq
    rw [modulus_eq_emod _ hp0, modulus_eq_emod _ hp0]
    have h3 := comparableElement_inj (a := a) (b := b) hp0
    rw [h1, h2] at h3
    simp only [h3]
  have hle : lesserEq a b p = (if s ≤ t then 1 else 0) := by
    unfold lesserEq
    rw [boolOr_of_bit hp (lesser_bit _ _ _) (eq_bit _ _ _), hl, he]
    by_cases h3 : s < t
    · simp [h3, h3.le]
    · by_cases h4 : s = t
      · simp [h4]
      · have : ¬ s ≤ t := by omega
        simp [h3, h4, this]
  have hg : greater a b p = (if s > t then 1 else 0) := by
    unfold greater
    rw [hle, not_of_bit hp (by split <;> simp)]
    by_cases h3 : s ≤ t
    · have : ¬ s > t := by omega
      simp [h3]
    · have : s > t := by omega
      simp [this]
  refine ⟨hl, hle, hg, ?_, he, ?_⟩
  · unfold greaterEq
    rw [boolOr_of_bit hp (by rw [hg]; split <;> simp) (eq_bit _ _ _), hg, he]
    by_cases h3 : s > t
    · simp [h3, h3.le]
    · by_cases h4 : s = t
      · simp [h4]
      · have : ¬ s ≥ t := by omega
        simp [h3, h4, this]
  · unfold notEq
    rw [not_of_bit hp (eq_bit _ _ _), he]
    by_cases h4 : s = t <;> simp [h4]

/-- Operands may be changed by multiples of `p`. -/
theorem C06_periodic (a b p k l : Int) (hp : 1 < p) :
    lesser (a + k * p) (b + l * p) p = lesser a b p ∧ eq (a + k * p) (b + l * p) p = eq a b p ∧
    lesserEq (a + k * p) (b + l * p) p = lesserEq a b p ∧ greater (a + k * p) (b + l * p) p = greater a b p ∧
    greaterEq (a + k * p) (b + l * p) p = greaterEq a b p ∧ notEq (a + k * p) (b + l * p) p = notEq a b p := by
  have hp0 : 0 < p := by omega
  obtain ⟨s, hs, _⟩ := C06_signed_exists_unique p a hp0
  obtain ⟨t, ht, _⟩ := C06_signed_exists_unique p b hp0
  have hs' : IsSigned p (a + k * p) s := ⟨hs.1.trans (by simp [Int.ModEq]), hs.2⟩
  have ht' : IsSigned p (b + l * p) t := ⟨ht.1.trans (by simp [Int.ModEq]), ht.2⟩
  obtain ⟨h1, h2, h3, h4, h5, h6⟩ := C06_comparisons _ _ p s t hp hs ht
  obtain ⟨g1, g2, g3, g4, g5, g6⟩ := C06_comparisons _ _ p s t hp hs' ht'
  simp only [h1, h2, h3, h4, h5, h6, g1, g2, g3, g4, g5, g6, and_self]

/-- Around the wrap point: (p+1)/2 counts as negative. -/
example : IsSigned 257 129 (-128) ∧ IsSigned 257 128 128 ∧ lesser 129 128 257 = 1 ∧ lesser 128 129 257 = 0 := by
  simp only [IsSigned, Int.ModEq]; decide

/-! ## C07 -/

theorem C07_asBool (a p : Int) (hp : 1 < p) : asBool a p = true ↔ Truthy p a := by
  unfold asBool Truthy
  rw [normalize_eq a (by omega)]
  by_cases h : a % p = 0 <;> simp [h, Int.ModEq]

theorem normalize_truthy (a p : Int) (hp : 1 < p) [Decidable (Truthy p a)] :
    normalize a p = if Truthy p a then 1 else 0 := by
  rw [normalize_eq a (by omega)]
  by_cases h : a % p = 0 <;> simp [h, Int.ModEq, Truthy]

open Classical in
theorem C07_boolean_tables (a b p : Int) (hp : 1 < p) :
    boolAnd a b p = (if Truthy p a ∧ Truthy p b then 1 else 0) ∧
    boolOr a b p = (if Truthy p a ∨ Truthy p b then 1 else 0) ∧
    ModArith.not a p = (if Truthy p a then 0 else 1) := by
  unfold boolOr boolAnd ModArith.not
  rw [normalize_truthy a p hp, normalize_truthy b p hp]
  by_cases ha : Truthy p a <;> by_cases hb : Truthy p b <;> simp [ha, hb]

example : boolAnd 5 514 257 = 0 ∧ boolOr 5 514 257 = 1 ∧ ModArith.not 200 257 = 0 ∧ Truthy 257 5 ∧ ¬ Truthy 257 514 := by
  simp only [Truthy, Int.ModEq]; decide

/-! ## C08 -/

/-- Spec: `n` is the number of bits of `p`. -/
def NumBits (p : Int) (n : Nat) : Prop := p < 2 ^ n ∧ 2 ^ n ≤ 2 * p

theorem C08_numBits_exists (p : Int) (hp : 0 < p) : ∃! n, NumBits p n := by
  obtain ⟨q, rfl⟩ := Int.eq_ofNat_of_zero_le hp.le
  have hq : q ≠ 0 := by rintro rfl; simp at hp
  have h1 := Nat.lt_pow_succ_log_self (b := 2) (by decide) q
  have h2 := Nat.pow_log_le_self 2 hq
  refine ⟨Nat.log 2 q + 1, ⟨by exact_mod_cast h1, ?_⟩, ?_⟩
  · have : 2 ^ (Nat.log 2 q + 1) ≤ 2 * q := by rw [pow_succ]; omega
    exact_mod_cast this
  · rintro m ⟨g1, g2⟩
    have := (bitRepresentation_length hp g1 g2).2
    have h3 := (bitRepresentation_length hp (n := Nat.log 2 q + 1) (by exact_mod_cast h1)
      (by have : 2 ^ (Nat.log 2 q + 1) ≤ 2 * q := by rw [pow_succ]; omega
          exact_mod_cast this)).2
    omega

/-- Left shift by a small amount: multiply, keep the low bits, reduce. -/
theorem C08_shiftL_small (x p : Int) (k n : Nat) (hp : 0 < p) (hx : Canonical p x) (hn : NumBits p n)
    (hk : 2 * (k : Int) ≤ p) (hk64 : k < 2 ^ 64) :
    shiftL x k p = .ok (((x * 2 ^ k) % 2 ^ n) % p) := by
  have h1 : (k : Int) ≤ p.tdiv 2 := by
    rw [Int.tdiv_eq_ediv_of_nonneg hp.le]; omega
  have h2 : toUsize (k : Int) = some k := by
    unfold toUsize; rw [if_pos ⟨by omega, by exact_mod_cast hk64⟩]; simp
  have h3 : 0 ≤ x * 2 ^ k := Int.mul_nonneg hx.1 (by positivity)
  rw [shiftL, shift_small _ _ _ _ h1, h2]
  simp [land_mask hp h3 hn.1 hn.2, modulus_eq_emod _ hp]

/-- Right shift by a small amount: floor division by a power of two. -/
theorem C08_shiftR_small (x p : Int) (k : Nat) (hp : 0 < p) (hx : Canonical p x)
    (hk : 2 * (k : Int) ≤ p) (hk64 : k < 2 ^ 64) :
    shiftR x k p = .ok (x / 2 ^ k) ∧ Canonical p (x / 2 ^ k) := by
  have h1 : (k : Int) ≤ p.tdiv 2 := by
    rw [Int.tdiv_eq_ediv_of_nonneg hp.le]; omega
  have h2 : toUsize (k : Int) = some k := by
    unfold toUsize; rw [if_pos ⟨by omega, by exact_mod_cast hk64⟩]; simp
  constructor
  · rw [shiftR, shift_small _ _ _ _ h1, h2]
    simp [Int.tdiv_eq_ediv_of_nonneg hx.1]
  · exact ⟨Int.ediv_nonneg hx.1 (by positivity), lt_of_le_of_lt (Int.ediv_le_self _ hx.1) hx.2⟩

/-- Large amounts shift in the other direction (for every `x`, canonical or not). -/
theorem C08_dual (x k p : Int) (hp : 0 < p) (hk : p < 2 * k) :
    shiftL x k p = shiftR x (p - k) p ∧ shiftR x k p = shiftL x (p - k) p := by
  have h1 : ¬ k ≤ p.tdiv 2 := by
    rw [Int.tdiv_eq_ediv_of_nonneg hp.le]; omega
  exact ⟨by rw [shiftL, shift_big _ _ _ _ h1]; rfl, by rw [shiftR, shift_big _ _ _ _ h1]; rfl⟩

/-- Spec: the amount actually shifted by. -/
def EffectiveAmount (p k : Int) : Int := if 2 * k ≤ p then k else p - k

/-- Errors: exactly when the effective amount is not a 64-bit machine word; in range this is always the same error
value and never an abort. -/
theorem C08_error_iff (x k p : Int) (hp : 0 < p) :
    (shiftL x k p = .error .divisionByZero ↔ EffectiveAmount p k < 0 ∨ 2 ^ 64 ≤ EffectiveAmount p k) ∧
    (shiftR x k p = .error .divisionByZero ↔ EffectiveAmount p k < 0 ∨ 2 ^ 64 ≤ EffectiveAmount p k) ∧
    shiftL x k p ≠ .error .panic ∧ shiftR x k p ≠ .error .panic := by
  have key : ∀ b k, 2 * k ≤ p → (shift b x k p = .error .divisionByZero ↔ k < 0 ∨ 2 ^ 64 ≤ k) ∧
      shift b x k p ≠ .error .panic := by
    intro b k hk
    have h1 : k ≤ p.tdiv 2 := by rw [Int.tdiv_eq_ediv_of_nonneg hp.le]; omega
    rw [shift_small _ _ _ _ h1]
    unfold toUsize
    by_cases h : 0 ≤ k ∧ k < 2 ^ 64
    · rw [if_pos h]
      have : ¬ (k < 0 ∨ 2 ^ 64 ≤ k) := by omega
      cases b <;> simp <;> omega
    · rw [if_neg h]
      have : k < 0 ∨ 2 ^ 64 ≤ k := by omega
      simpa using this
  unfold EffectiveAmount
  by_cases hk : 2 * k ≤ p
  · rw [if_pos hk]
    exact ⟨(key true k hk).1, (key false k hk).1, (key true k hk).2, (key false k hk).2⟩
  · rw [if_neg hk]
    obtain ⟨d1, d2⟩ := C08_dual x k p hp (by omega)
    rw [d1, d2]
    exact ⟨(key false _ (by omega)).1, (key true _ (by omega)).1, (key false _ (by omega)).2,
      (key true _ (by omega)).2⟩

example : NumBits 257 9 ∧ Canonical 257 200 ∧ shiftL 200 3 257 = .ok 64 ∧ shiftR 200 3 257 = .ok 25 ∧
    shiftL 200 254 257 = .ok 25 ∧ shiftL 200 260 257 = .error .divisionByZero := by
  refine ⟨by unfold NumBits; decide, by unfold Canonical; decide, ?_, ?_, ?_, ?_⟩
  · have := C08_shiftL_small 200 257 3 9 (by decide) (by unfold Canonical; decide) (by unfold NumBits; decide)
      (by decide) (by decide)
    simpa using this
  · have := C08_shiftR_small 200 257 3 (by decide) (by unfold Canonical; decide) (by decide) (by decide)
    simpa using this.1
  · rw [(C08_dual 200 254 257 (by decide) (by decide)).1]
    have := C08_shiftR_small 200 257 3 (by decide) (by unfold Canonical; decide) (by decide) (by decide)
    simpa using this.1
  · rw [(C08_error_iff 200 260 257 (by decide)).1]
    unfold EffectiveAmount; decide

/-! ## C09 -/

/-- Spec: `z` is obtained from `x`, `y` bit by bit with `f`. -/
def BitwiseOf (f : Bool → Bool → Bool) (x y z : Nat) : Prop := ∀ i, z.testBit i = f (x.testBit i) (y.testBit i)

theorem C09_bitwise (x y p : Nat) (hp : 0 < p) :
    (∃ z, BitwiseOf (· && ·) x y z ∧ bitAnd x y p = ((z % p : Nat) : Int)) ∧
    (∃ z, BitwiseOf (· || ·) x y z ∧ bitOr x y p = ((z % p : Nat) : Int)) ∧
    (∃ z, BitwiseOf Bool.xor x y z ∧ bitXor x y p = ((z % p : Nat) : Int)) := by
  have hp' : (0 : Int) < p := by exact_mod_cast hp
  refine ⟨⟨x &&& y, fun i => by simp, ?_⟩, ⟨x ||| y, fun i => by simp, ?_⟩, ⟨x ^^^ y, fun i => by simp, ?_⟩⟩
  · unfold bitAnd; rw [modulus_eq_emod _ hp']; rfl
  · unfold bitOr; rw [modulus_eq_emod _ hp']; rfl
  · unfold bitXor; rw [modulus_eq_emod _ hp']; rfl

/-- Complement flips the low `n = bits(p)` bits, drops the higher ones, and reduces. -/
theorem C09_complement (x p n : Nat) (hp : 0 < p) (hn : NumBits p n) :
    ∃ z, (∀ i, z.testBit i = (decide (i < n) && !x.testBit i)) ∧ complement x p = ((z % p : Nat) : Int) := by
  refine ⟨2 ^ n - (x % 2 ^ n + 1), ?_, ?_⟩
  · intro i
    rw [Nat.testBit_two_pow_sub_succ (Nat.mod_lt _ (by positivity))]
    by_cases h : i < n <;> simp [h]
  · rw [complement_eq (by positivity) (by exact_mod_cast hp) hn.1 hn.2]
    have h1 : x % 2 ^ n + 1 ≤ 2 ^ n := Nat.mod_lt _ (by positivity)
    push_cast [Nat.cast_sub h1]
    congr 1; ring

/-- Complement twice is the identity on canonical field elements. -/
theorem C09_complement_involutive (x p : Int) (hx : Canonical p x) :
    complement (complement x p) p = x := by
  have hp : 0 < p := by have := hx.1; have := hx.2; omega
  obtain ⟨n, hn, _⟩ := C08_numBits_exists p hp
  have hx1 := hx.1
  have hx2 := hx.2
  have hn1 := hn.1
  have hn2 := hn.2
  have h1 : complement x p = (2 ^ n - 1 - x) % p := by
    rw [complement_eq hx1 hp hn1 hn2, Int.emod_eq_of_lt hx1 (by omega)]
  have h2 : 0 ≤ complement x p := by rw [h1]; exact Int.emod_nonneg _ (by omega)
  have h3 : complement x p < p := by rw [h1]; exact Int.emod_lt_of_pos _ (by omega)
  rw [complement_eq h2 hp hn1 hn2, Int.emod_eq_of_lt h2 (by omega), h1]
  have h4 : (2 ^ n - 1 - (2 ^ n - 1 - x) % p) ≡ x [ZMOD p] := by
    have := (Int.mod_modEq (2 ^ n - 1 - x) p)
    have h5 := Int.ModEq.sub (Int.ModEq.refl (n := p) (2 ^ n - 1)) this
    rw [show (2 ^ n - 1 - (2 ^ n - 1 - x)) = x by ring] at h5
    exact h5
  rw [h4.eq]
  exact Int.emod_eq_of_lt hx1 hx2

/-- Outside the canonical range the involution fails: the identity on field elements is genuinely restricted. -/
theorem C09_complement_noncanonical :
    ¬ complement (complement 1234 257) 257 ≡ 1234 [ZMOD 257] := by
  have hb : ∀ x : Int, 0 ≤ x → complement x 257 = (2 ^ 9 - 1 - x % 2 ^ 9) % 257 := fun x hx =>
    complement_eq hx (by decide) (by decide) (by decide)
  rw [hb _ (by rw [hb _ (by decide)]; decide), hb _ (by decide)]
  decide

example : NumBits 257 9 ∧ Canonical 257 100 ∧ complement 100 257 = 154 := by
  refine ⟨by unfold NumBits; decide, by unfold Canonical; decide, ?_⟩
  rw [complement_eq (n := 9) (by decide) (by decide) (by decide) (by decide)]; decide

/-! ## C10 -/

/-- Batch inversion of units: position by position the inverse, one extra trailing entry. -/
theorem C10_multi_inv (vs : List Int) (p : Nat) (hp : 0 < p) (hu : ∀ v ∈ vs, IsUnit (v : ZMod p)) :
    ∃ outs, multiInv vs p = .ok (outs ++ [0]) ∧
      List.Forall₂ (fun (o v : Int) => (o : ZMod p) * (v : ZMod p) = 1 ∧ Canonical p o) outs vs := by
  unfold multiInv
  have hne := partials_ne_nil p 1 vs
  have hl := List.getLast?_eq_getLast_of_ne_nil hne
  simp only [hl]
  have hc := partials_getLast_cast hp vs 1 _ hl
  have hprod : IsUnit ((vs.map (fun v : Int => (v : ZMod p))).prod) := by
    clear hl hc hne
    induction vs with
    | nil => simp
    | cons v vs ih =>
      simp only [List.map_cons, List.prod_cons]
      exact (hu v (by simp)).mul (ih (fun w hw => hu w (by simp [hw])))
  obtain ⟨q, hq, hqc, hqm⟩ := (C02_div 1 ((partials p 1 vs).getLast hne) p hp).1 (by rw [hc]; simpa using hprod)
  simp only [hq]
  obtain ⟨outs, h1, h2⟩ := multiInvBack_spec hp 1 vs _ q [0] hl (by simpa using hqm)
  exact ⟨outs, by rw [h1], h2⟩

/-- The abort path of batch inversion: exactly the lists containing a non-unit. -/
theorem C10_multi_inv_abort (vs : List Int) (p : Nat) (hp : 0 < p) :
    multiInv vs p = .error .panic ↔ ∃ v ∈ vs, ¬ IsUnit (v : ZMod p) := by
  constructor
  · intro h
    by_contra hcon
    have hu : ∀ v ∈ vs, IsUnit (v : ZMod p) := fun v hv => by
      by_contra hn; exact hcon ⟨v, hv, hn⟩
    obtain ⟨outs, h1, _⟩ := C10_multi_inv vs p hp hu
    rw [h1] at h; cases h
  · rintro ⟨v, hv, hn⟩
    unfold multiInv
    have hne := partials_ne_nil p 1 vs
    have hl := List.getLast?_eq_getLast_of_ne_nil hne
    simp only [hl]
    have hc := partials_getLast_cast hp vs 1 _ hl
    have hnu : ¬ IsUnit (((partials p 1 vs).getLast hne : Int) : ZMod p) := by
      rw [hc]
      intro h
      apply hn
      simp only [Int.cast_one, one_mul] at h
      exact isUnit_of_dvd_unit (List.dvd_prod (List.mem_map.2 ⟨v, hv, rfl⟩)) h
    have := (C02_div 1 _ p hp).2 hnu
    simp only [this]

example : multiInv [2, 3, 10] 257 = .ok [129, 86, 180, 0] ∧ multiInv [2, 514, 3] 257 = .error .panic := by
  decide +kernel

end Verif.Props.ModArith
