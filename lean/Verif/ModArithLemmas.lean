import Verif.ModArith
import Mathlib.Data.ZMod.Units
import Mathlib.Algebra.Field.ZMod
import Mathlib.Data.Nat.Digits.Lemmas
import Mathlib.Tactic.Ring
import Mathlib.Tactic.Linarith

/-! Helper lemmas about the model of `modular_arithmetic.rs`. -/

namespace Verif.ModArith

theorem modulus_eq_emod (a : Int) {b : Int} (hb : 0 < b) : modulus a b = a % b := by
  unfold modulus
  have h1 : 0 ≤ a % b := Int.emod_nonneg a (by omega)
  have h2 : a % b < b := Int.emod_lt_of_pos a hb
  have h3 := Int.tmod_eq_emod (a := a) (b := b)
  have hn : (b.natAbs : Int) = b := by omega
  rw [h3]
  split
  · rw [Nat.cast_zero, sub_zero, Int.tmod_eq_emod_of_nonneg (by omega)]
    simp
  · rw [hn, Int.tmod_eq_emod_of_nonneg (by omega)]
    rw [show a % b - b + b = a % b by ring, Int.emod_emod_of_dvd _ (dvd_refl _)]

theorem modulus_nonneg (a : Int) {b : Int} (hb : 0 < b) : 0 ≤ modulus a b := by
  rw [modulus_eq_emod a hb]; exact Int.emod_nonneg a (by omega)

theorem modulus_lt (a : Int) {b : Int} (hb : 0 < b) : modulus a b < b := by
  rw [modulus_eq_emod a hb]; exact Int.emod_lt_of_pos a hb

theorem modulus_modEq (a : Int) {b : Int} (hb : 0 < b) : modulus a b ≡ a [ZMOD b] := by
  rw [modulus_eq_emod a hb]; exact Int.mod_modEq a b

theorem modulus_congr {a a' b : Int} (hb : 0 < b) (h : a ≡ a' [ZMOD b]) : modulus a b = modulus a' b := by
  rw [modulus_eq_emod _ hb, modulus_eq_emod _ hb]; exact h

theorem modulus_of_canonical {a b : Int} (h0 : 0 ≤ a) (h1 : a < b) : modulus a b = a := by
  rw [modulus_eq_emod a (by omega)]; exact Int.emod_eq_of_lt h0 h1

theorem modulus_cast (a : Int) (p : Nat) (hp : 0 < p) : ((modulus a p : Int) : ZMod p) = (a : ZMod p) := by
  exact (ZMod.intCast_eq_intCast_iff _ _ _).2 (modulus_modEq a (by exact_mod_cast hp))

theorem add_cast (a b : Int) (p : Nat) (hp : 0 < p) : ((add a b p : Int) : ZMod p) = (a : ZMod p) + b := by
  rw [add, modulus_cast _ _ hp]; push_cast; rfl

theorem mul_cast (a b : Int) (p : Nat) (hp : 0 < p) : ((mul a b p : Int) : ZMod p) = (a : ZMod p) * b := by
  rw [mul, modulus_cast _ _ hp]; push_cast; rfl

theorem sub_cast (a b : Int) (p : Nat) (hp : 0 < p) : ((sub a b p : Int) : ZMod p) = (a : ZMod p) - b := by
  rw [sub, modulus_cast _ _ hp]; push_cast; rfl

theorem prefixSub_cast (a : Int) (p : Nat) (hp : 0 < p) : ((prefixSub a p : Int) : ZMod p) = -(a : ZMod p) := by
  rw [prefixSub, mul_cast _ _ _ hp]; push_cast; ring

theorem modInverse_spec {a m x : Int} (h : modInverse a m = some x) : a * x ≡ 1 [ZMOD m] := by
  unfold modInverse at h
  split at h
  · rename_i hg
    injection h with h
    subst h
    have h1 := Int.gcd_eq_gcd_ab (a % m) m
    have h2 : Int.gcd (a % m) m = 1 := by
      rw [← hg]; exact Int.gcd_emod _ _
    rw [h2] at h1
    have h3 : a * (Int.gcdA (a % m) m % m) ≡ (a % m) * Int.gcdA (a % m) m [ZMOD m] :=
      Int.ModEq.mul (Int.mod_modEq a m).symm (Int.mod_modEq _ m)
    refine h3.trans ?_
    have h4 : (a % m) * Int.gcdA (a % m) m = 1 - m * Int.gcdB (a % m) m := by
      push_cast at h1; linarith
    rw [h4]
    exact (Int.modEq_iff_dvd.2 ⟨Int.gcdB (a % m) m, by ring⟩)
  · cases h

theorem modInverse_isSome_iff (a m : Int) : (modInverse a m).isSome ↔ Int.gcd a m = 1 := by
  unfold modInverse; split <;> simp [*]

theorem div_ok_cast {a b q : Int} {p : Nat} (hp : 0 < p) (h : div a b p = .ok q) :
    (q : ZMod p) * (b : ZMod p) = (a : ZMod p) := by
  unfold div at h
  split at h
  · cases h
  · rename_i x hx
    injection h with h
    subst h
    have h1 := modInverse_spec hx
    have h2 := (ZMod.intCast_eq_intCast_iff _ _ _).2 h1
    rw [mul_cast _ _ _ hp]
    push_cast at h2
    calc (a : ZMod p) * x * b = a * (b * x) := by ring
      _ = a := by rw [h2]; ring

theorem gcd_eq_one_iff_isUnit (b : Int) (p : Nat) : Int.gcd b p = 1 ↔ IsUnit (b : ZMod p) := by
  rw [ZMod.coe_int_isUnit_iff_isCoprime, Int.isCoprime_iff_gcd_eq_one, Int.gcd_comm]

theorem div_error_iff (a b : Int) (p : Nat) : (∃ e, div a b p = .error e) ↔ ¬ IsUnit (b : ZMod p) := by
  rw [← gcd_eq_one_iff_isUnit, ← modInverse_isSome_iff]
  unfold div
  cases modInverse b p <;> simp

theorem isUnit_iff_ne_zero_of_prime (b : Int) (p : Nat) (hp : p.Prime) :
    IsUnit (b : ZMod p) ↔ b % p ≠ 0 := by
  have := Fact.mk hp
  rw [isUnit_iff_ne_zero, Ne, Ne, ZMod.intCast_zmod_eq_zero_iff_dvd, Int.dvd_iff_emod_eq_zero]

/-! ### exponentiation -/

theorem modpowLoop_spec (m : Int) (fuel : Nat) :
    ∀ (base : Int) (e : Nat) (acc : Int), e ≤ fuel →
      modpowLoop fuel base e m acc ≡ acc * base ^ e [ZMOD m] := by
  induction fuel with
  | zero => intro base e acc h; obtain rfl : e = 0 := by omega
            simp [modpowLoop]
  | succ n ih =>
    intro base e acc h
    unfold modpowLoop
    split
    · rename_i he; subst he; simp
    · rename_i he
      have hle : e / 2 ≤ n := by omega
      refine (ih _ _ _ hle).trans ?_
      have hb : ((base * base) % m) ^ (e / 2) ≡ (base * base) ^ (e / 2) [ZMOD m] :=
        (Int.mod_modEq _ _).pow _
      split
      · rename_i hodd
        have hE : e = 2 * (e / 2) + 1 := by omega
        have h1 : (acc * base) % m * ((base * base) % m) ^ (e / 2) ≡
            (acc * base) * (base * base) ^ (e / 2) [ZMOD m] := (Int.mod_modEq _ _).mul hb
        refine h1.trans ?_
        have h2 : acc * base ^ e = (acc * base) * (base * base) ^ (e / 2) := by
          conv_lhs => rw [hE]
          rw [← pow_two, ← pow_mul, pow_succ]; ring
        rw [h2]
      · rename_i hodd
        have hE : e = 2 * (e / 2) := by omega
        have h2 : acc * base ^ e = acc * (base * base) ^ (e / 2) := by
          conv_lhs => rw [hE]
          rw [← pow_two, ← pow_mul]
        rw [h2]
        exact hb.mul_left _

theorem modpowLoop_range {m : Int} (hm : 0 < m) (fuel : Nat) :
    ∀ (base : Int) (e : Nat) (acc : Int), 0 ≤ acc ∧ acc < m →
      0 ≤ modpowLoop fuel base e m acc ∧ modpowLoop fuel base e m acc < m := by
  induction fuel with
  | zero => intro base e acc h; simpa [modpowLoop] using h
  | succ n ih =>
    intro base e acc h
    unfold modpowLoop
    split
    · exact h
    · apply ih
      split
      · exact ⟨Int.emod_nonneg _ (by omega), Int.emod_lt_of_pos _ hm⟩
      · exact h

theorem modpow_modEq (base : Int) (e : Nat) (m : Int) : modpow base e m ≡ base ^ e [ZMOD m] := by
  unfold modpow
  refine (modpowLoop_spec m e _ e _ le_rfl).trans ?_
  have h1 : (1 % m) * (base % m) ^ e ≡ 1 * base ^ e [ZMOD m] :=
    (Int.mod_modEq _ _).mul ((Int.mod_modEq _ _).pow _)
  simpa using h1

theorem modpow_range (base : Int) (e : Nat) {m : Int} (hm : 0 < m) :
    0 ≤ modpow base e m ∧ modpow base e m < m :=
  modpowLoop_range hm e _ e _ ⟨Int.emod_nonneg _ (by omega), Int.emod_lt_of_pos _ hm⟩

/-! ### signed representatives and booleans -/

theorem comparableElement_eq (a : Int) {p : Int} (hp : 0 < p) :
    comparableElement a p = if p / 2 < a % p then a % p - p else a % p := by
  have h0 := Int.emod_nonneg a (show p ≠ 0 by omega)
  have h1 := Int.emod_lt_of_pos a hp
  have h2 : p.tdiv 2 = p / 2 := Int.tdiv_eq_ediv_of_nonneg (by omega)
  unfold comparableElement val
  rw [modulus_eq_emod a hp, h2]
  simp only
  split <;> split <;> omega

theorem comparableElement_zero_iff (a : Int) {p : Int} (hp : 0 < p) :
    comparableElement a p = 0 ↔ a % p = 0 := by
  have h1 := Int.emod_lt_of_pos a hp
  rw [comparableElement_eq a hp]
  split <;> omega

theorem comparableElement_inj {a b p : Int} (hp : 0 < p) :
    comparableElement a p = comparableElement b p ↔ a % p = b % p := by
  have h0 := Int.emod_nonneg a (show p ≠ 0 by omega)
  have h1 := Int.emod_lt_of_pos a hp
  have h2 := Int.emod_nonneg b (show p ≠ 0 by omega)
  have h3 := Int.emod_lt_of_pos b hp
  rw [comparableElement_eq a hp, comparableElement_eq b hp]
  split <;> split <;> omega

theorem normalize_eq (a : Int) {p : Int} (hp : 0 < p) :
    normalize a p = if a % p = 0 then 0 else 1 := by
  unfold normalize
  simp only [comparableElement_zero_iff a hp]

theorem normalize_bit {b : Int} {p : Int} (hp : 1 < p) (hb : b = 0 ∨ b = 1) : normalize b p = b := by
  rw [normalize_eq b (by omega)]
  rcases hb with rfl | rfl
  · simp
  · rw [Int.emod_eq_of_lt (by omega) hp]; simp

theorem eq_bit (a b p : Int) : eq a b p = 0 ∨ eq a b p = 1 := by
  unfold eq; split <;> simp

theorem lesser_bit (a b p : Int) : lesser a b p = 0 ∨ lesser a b p = 1 := by
  unfold lesser; split <;> simp

theorem not_of_bit {b p : Int} (hp : 1 < p) (hb : b = 0 ∨ b = 1) : not b p = 1 - b := by
  unfold not
  rw [normalize_bit hp hb]
  rcases hb with rfl | rfl <;> decide

theorem boolOr_of_bit {a b p : Int} (hp : 1 < p) (ha : a = 0 ∨ a = 1) (hb : b = 0 ∨ b = 1) :
    boolOr a b p = if a = 1 ∨ b = 1 then 1 else 0 := by
  unfold boolOr boolAnd
  rw [normalize_bit hp ha, normalize_bit hp hb]
  rcases ha with rfl | rfl <;> rcases hb with rfl | rfl <;> decide

/-! ### batch inversion -/

theorem partials_ne_nil (field acc : Int) (vs : List Int) : partials field acc vs ≠ [] := by
  cases vs <;> simp [partials]

theorem partials_length (field : Int) (vs : List Int) : ∀ acc, (partials field acc vs).length = vs.length + 1 := by
  induction vs with
  | nil => intro acc; simp [partials]
  | cons v vs ih => intro acc; simp [partials, ih]

theorem partials_append (field : Int) (vs : List Int) (v : Int) : ∀ acc,
    ∃ front last, partials field acc vs = front ++ [last] ∧
      partials field acc (vs ++ [v]) = front ++ [last, mul last v field] := by
  induction vs with
  | nil => intro acc; exact ⟨[], acc, by simp [partials], by simp [partials]⟩
  | cons w vs ih =>
    intro acc
    obtain ⟨front, last, h1, h2⟩ := ih (mul acc w field)
    exact ⟨acc :: front, last, by simp [partials, h1], by simp [partials, h2]⟩

theorem partials_getLast_cast {p : Nat} (hp : 0 < p) (vs : List Int) : ∀ acc total,
    (partials p acc vs).getLast? = some total →
      (total : ZMod p) = (acc : ZMod p) * (vs.map (fun v : Int => (v : ZMod p))).prod := by
  induction vs with
  | nil => intro acc total h; simp [partials] at h; simp [h]
  | cons v vs ih =>
    intro acc total h
    rw [partials, List.getLast?_cons_of_ne_nil (partials_ne_nil _ _ _)] at h
    have := ih _ _ h
    rw [this, mul_cast _ _ _ hp]
    simp; ring

theorem zip_append_right_extra {α β : Type} : ∀ (f : List α) (v : List β) (r : List α),
    f.length = v.length → (f ++ r).zip v = f.zip v
  | [], [], r, _ => by simp
  | [], _ :: _, _, h => by simp at h
  | _ :: _, [], _, h => by simp at h
  | a :: f, b :: v, r, h => by
    simp only [List.cons_append, List.zip_cons_cons]
    rw [zip_append_right_extra f v r (by simpa using h)]

theorem multiInvBack_spec {p : Nat} (hp : 0 < p) (acc : Int) (vs : List Int) :
    ∀ (total inverse : Int) (out : List Int),
      (partials p acc vs).getLast? = some total →
      (inverse : ZMod p) * (total : ZMod p) = 1 →
      ∃ outs : List Int, multiInvBack p ((partials p acc vs).zip vs).reverse inverse out = outs ++ out ∧
        List.Forall₂ (fun (o v : Int) => (o : ZMod p) * (v : ZMod p) = 1 ∧ (0 ≤ o ∧ o < p)) outs vs := by
  induction vs using List.reverseRecOn with
  | nil => intro total inverse out _ _; exact ⟨[], by simp [multiInvBack], List.Forall₂.nil⟩
  | append_singleton vs v ih =>
    intro total inverse out hlast hinv
    obtain ⟨front, last, h1, h2⟩ := partials_append p vs v acc
    have hlen : (front ++ [last]).length = vs.length + 1 := by rw [← h1]; exact partials_length _ _ _
    have hlen' : front.length = vs.length := by simpa using hlen
    rw [h2] at hlast
    have hzip : (front ++ [last, mul last v p]).zip (vs ++ [v]) = ((front ++ [last]).zip vs) ++ [(last, v)] := by
      rw [List.zip_append hlen', zip_append_right_extra _ _ _ hlen']
      simp
    have htot : total = mul last v p := by simpa using hlast.symm
    rw [h2, hzip, List.reverse_append]
    simp only [List.reverse_cons, List.reverse_nil, List.nil_append, List.singleton_append, multiInvBack]
    have hinv' : ((mul inverse v p : Int) : ZMod p) * (last : ZMod p) = 1 := by
      rw [mul_cast _ _ _ hp, ← hinv, htot, mul_cast _ _ _ hp]; ring
    obtain ⟨outs, ho, hf⟩ := ih last (mul inverse v p) (mul last inverse p :: out) (by rw [h1]; simp) hinv'
    rw [h1] at ho
    refine ⟨outs ++ [mul last inverse p], by rw [ho]; simp, ?_⟩
    refine List.rel_append hf (List.Forall₂.cons ⟨?_, ?_⟩ List.Forall₂.nil)
    · rw [mul_cast _ _ _ hp, ← hinv, htot, mul_cast _ _ _ hp]; ring
    · exact ⟨modulus_nonneg _ (by exact_mod_cast hp), modulus_lt _ (by exact_mod_cast hp)⟩

theorem bitRepresentation_length {p : Int} (hp : 0 < p) {n : Nat} (h1 : p < 2 ^ n) (h2 : 2 ^ n ≤ 2 * p) :
    (bitRepresentation p).length = n ∧ bits p = n := by
  have hn : bits p = n := by
    unfold bits
    obtain ⟨q, rfl⟩ := Int.eq_ofNat_of_zero_le hp.le
    simp only [Int.natAbs_natCast]
    have h1' : q < 2 ^ n := by exact_mod_cast h1
    have h2' : 2 ^ n ≤ 2 * q := by exact_mod_cast h2
    have hq : q ≠ 0 := by rintro rfl; simp at hp
    apply le_antisymm
    · exact (Nat.digits_length_le_iff (by decide) _).2 h1'
    · rcases n with _ | n
      · omega
      · have : 2 ^ n ≤ q := by rw [pow_succ] at h2'; omega
        exact (Nat.lt_digits_length_iff (by decide) _).2 this
  refine ⟨?_, hn⟩
  rw [← hn]; simp [bitRepresentation, bits, hp.ne']

theorem land_mask {x p : Int} (hp : 0 < p) (hx : 0 ≤ x) {n : Nat} (h1 : p < 2 ^ n) (h2 : 2 ^ n ≤ 2 * p) :
    Int.land x (mask p) = x % 2 ^ n := by
  unfold mask
  rw [(bitRepresentation_length hp h1 h2).1]
  obtain ⟨y, rfl⟩ := Int.eq_ofNat_of_zero_le hx
  have h3 : (2 : Int) ^ n - 1 = ((2 ^ n - 1 : Nat) : Int) := by
    have : 1 ≤ 2 ^ n := Nat.one_le_two_pow
    push_cast [Nat.cast_sub this]; rfl
  rw [h3]
  change ((y &&& (2 ^ n - 1) : Nat) : Int) = _
  rw [Nat.and_two_pow_sub_one_eq_mod]
  push_cast; rfl

theorem shift_small (b : Bool) (x k p : Int) (h : k ≤ p.tdiv 2) :
    shift b x k p = match toUsize k with
      | none => .error .divisionByZero
      | some k => if b then .ok (modulus (Int.land (x * 2 ^ k) (mask p)) p) else .ok (x.tdiv (2 ^ k)) := by
  rw [shift]; simp [h]; rfl

theorem shift_big (b : Bool) (x k p : Int) (h : ¬ k ≤ p.tdiv 2) : shift b x k p = shift (!b) x (p - k) p := by
  rw [shift]; simp [h]

theorem complement_eq {x p : Int} (hx : 0 ≤ x) (hp : 0 < p) {n : Nat} (h1 : p < 2 ^ n) (h2 : 2 ^ n ≤ 2 * p) :
    complement x p = (2 ^ n - 1 - x % 2 ^ n) % p := by
  unfold complement
  rw [(bitRepresentation_length hp h1 h2).2]
  simp only [not_lt.2 hx, decide_false]
  rw [modulus_eq_emod _ hp]
  congr 1
  obtain ⟨y, rfl⟩ := Int.eq_ofNat_of_zero_le hx
  have key : ∀ (n : Nat) (l : List Nat), (∀ d ∈ l, d < 2) →
      Nat.ofDigits 2 (List.map (fun bit => if bit = 0 then 1 else 0) (l.take n ++ List.replicate (n - (l.take n).length) 0))
        + Nat.ofDigits 2 l % 2 ^ n = 2 ^ n - 1 := by
    intro n
    induction n with
    | zero => intro l _; simp [Nat.mod_one]
    | succ n ih =>
      intro l hl
      cases l with
      | nil =>
        have := ih [] (by simp)
        simp only [List.take_nil, List.length_nil, List.nil_append, Nat.sub_zero, Nat.ofDigits_nil,
          Nat.zero_mod, Nat.add_zero] at this ⊢
        rw [List.replicate_succ, List.map_cons, Nat.ofDigits_cons, this]
        have : 1 ≤ 2 ^ n := Nat.one_le_two_pow
        simp only [if_true]
        rw [pow_succ]; omega
      | cons d l =>
        have hd : d < 2 := hl d (by simp)
        have := ih l (fun e he => hl e (by simp [he]))
        simp only [List.take_succ_cons, List.cons_append, List.map_cons, Nat.ofDigits_cons, List.length_cons,
          Nat.succ_sub_succ_eq_sub] at this ⊢
        have h5 : (d + 2 * Nat.ofDigits 2 l) % 2 ^ (n + 1) = d + 2 * (Nat.ofDigits 2 l % 2 ^ n) := by
          rw [pow_succ, mul_comm (2 ^ n) 2, Nat.mod_mul]
          have h6 : (d + 2 * Nat.ofDigits 2 l) % 2 = d := by omega
          have h7 : (d + 2 * Nat.ofDigits 2 l) / 2 = Nat.ofDigits 2 l := by omega
          rw [h6, h7]
        have : 1 ≤ 2 ^ n := Nat.one_le_two_pow
        rw [h5, pow_succ]
        have : d = 0 ∨ d = 1 := by omega
        rcases this with rfl | rfl
        · simp only [if_true]; omega
        · simp only [one_ne_zero, if_false]; omega
  have hk := key n (bitRepresentation y) (by
    unfold bitRepresentation
    split
    · simp
    · intro d hd; exact Nat.digits_lt_base (by decide) hd)
  have hv : Nat.ofDigits 2 (bitRepresentation (y : Int)) = y := by
    unfold bitRepresentation
    split
    · rename_i h; have : y = 0 := by exact_mod_cast h
      simp [this]
    · simp [Nat.ofDigits_digits]
  rw [hv] at hk
  have : 1 ≤ 2 ^ n := Nat.one_le_two_pow
  have hk' : ((Nat.ofDigits 2 (List.map (fun bit => if bit = 0 then 1 else 0)
      ((bitRepresentation (y : Int)).take n ++
        List.replicate (n - ((bitRepresentation (y : Int)).take n).length) 0)) : Nat) : Int)
      + ((y % 2 ^ n : Nat) : Int) = ((2 ^ n - 1 : Nat) : Int) := by exact_mod_cast hk
  push_cast [Nat.cast_sub this] at hk'
  simp only [Bool.false_eq_true, if_false]
  push_cast
  linarith

end Verif.ModArith
