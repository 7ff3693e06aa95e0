import Verif.WFrOpLemmas

/-! Lemmas on the operations of `Verif.WFr`: quotient, power, shifts and bits. -/

namespace Verif.WFr

set_option linter.unusedSimpArgs false
set_option linter.unusedVariables false
set_option linter.unusedSectionVars false

open Verif.Frg (El w qbits n64 R limb Plain Sh Is sg is_long is_mont is_short sg_inj plain_eq_iff canon_iff shlSpec shrSpec lt_qbits)

section
variable {q : Nat} (hq : Good q)
include hq

theorem div_of {m m1 : Mem} {r a b : Nat} {x z : Int} (h1 : inv q m r b = some m1) (h2 : Res q m m1 r z) (ha : Is q (m a) x)
    (hr : a ≠ r) (ha1 : a ≠ s1) (ha2 : a ≠ s2 q) : ∃ m', div q m r a b = some m' ∧ Res q m m' r (z * x) := by
  refine ⟨_, by unfold div; rw [h1]; rfl, ?_⟩
  obtain ⟨k1, k2⟩ := res_mul hq m1 r r a h2.1 (h2.2 a hr ha1 ha2 x ha)
  exact ⟨k1, fun c c1 c2 c3 t ht => k2 c c1 c2 c3 t (h2.2 c c1 c2 c3 t ht)⟩

theorem res_div (m : Mem) {r a b : Nat} {x y z : Int} (hx : Is q (m a) x) (hy : Is q (m b) y) (hz : y * z ≡ 1 [ZMOD q])
    (hr : a ≠ r) (ha1 : a ≠ s1) (ha2 : a ≠ s2 q) : ∃ m', div q m r a b = some m' ∧ Res q m m' r (z * x) := by
  obtain ⟨m1, h1, h2⟩ := res_inv hq m r b hy hz
  exact div_of hq h1 h2 hx hr ha1 ha2

/-- The inverse of zero is zero. -/
theorem res_inv_zero (m : Mem) (r a : Nat) (hx : Is q (m a) 0) : ∃ m', inv q m r a = some m' ∧ Res q m m' r 0 := by
  have hc := conv_toLong hq m a
  have hx' := hc a 0 hx
  have hl := toLong_long (q := q) m a
  rw [inv_put]
  generalize toLong q m a = m1 at *
  have hP := hx'.long hl
  have e : (m1 a).raw = 0 := by
    have : Plain q (m1 a).raw ((0 : Nat) : Int) := by
      refine hP.congr ?_
      split <;> simp [Int.ModEq]
    exact this.nat hq.pos
  rw [e, inverseMod_zero hq]
  refine ⟨_, rfl, res_put hc ?_⟩
  split
  · refine is_mont (plain_mul hq (x := 0) (Plain.self hq.pos) (plain_r3 hq) (by simp))
  · exact is_long (Plain.self hq.pos)

theorem res_pow (m : Mem) {r a b : Nat} (hab : a ≠ b) {x : Int} {Y : Nat} (hx : Is q (m a) x) (hy : Is q (m b) Y) (hY : Y < q) :
    Res q m (pow q m r a b) r (x ^ Y) := by
  have c1 := conv_mont hq m a
  have hm := mont_mont (q := q) m a
  have c2 := conv_toLong hq (toMontgomery q m a) b
  have c3 := conv_normal hq (toLong q (toMontgomery q m a) b) b
  have hm2 : (toNormal q (toLong q (toMontgomery q m a) b) b a).mont = true := by
    rw [toNormal_put, put_ne _ _ hab, toLong_put, put_ne _ _ hab]; exact hm
  have hl : LN (toNormal q (toLong q (toMontgomery q m a) b) b) b := normal_LN (toLong_long _ b)
  have hc := c1.trans (c2.trans c3)
  unfold pow
  simp only
  generalize toNormal q (toLong q (toMontgomery q m a) b) b = m1 at *
  rw [raw_flags, flags_raw, flags_raw]
  have eb : (m1 b).raw = Y := (hl.plain (hc b _ hy)).nat hY
  rw [eb]
  exact res_put hc (is_mont (plain_exp hq ((hc a x hx).isMont hm2) (lt_trans hY hq.lt_R)))

/-! ## Bits -/

theorem R_qbits : ∃ k, R q = 2 ^ qbits q * k ∧ 0 < k := by
  refine ⟨2 ^ (64 * n64 q - qbits q), ?_, by positivity⟩
  rw [← pow_add, R_w, w_pow_two]; congr 1; have := qbits_le (q := q); omega

theorem adjustBin_put (m : Mem) (p : Nat) (hv : (m p).raw < R q) :
    adjustBin q m p = put m p { m p with raw := (m p).raw % 2 ^ qbits q % q } := by
  have e := adjust_val hq (v := (m p).raw % 2 ^ qbits q) (Nat.mod_lt _ (by positivity))
  unfold adjustBin
  simp only
  rw [masked hq hv]
  have e1 : ∀ v, (setRaw m p v p).raw = v := fun v => by unfold setRaw; rw [put_same]
  rw [e1]
  have e2 : ∀ u v, setRaw (setRaw m p u) p v = setRaw m p v := fun u v => by unfold setRaw; rw [put_put, put_same]
  rw [e2, ← e]
  split <;> rfl

/-- The limbs are written, the result adjusted and the flags set. -/
theorem res_adjust {m m1 : Mem} (hc : Conv q m m1) (r : Nat) {v : Nat} (hv : v < R q) {z : Nat} (hz : z = v % 2 ^ qbits q % q) :
    Res q m (flags (adjustBin q (setRaw m1 r v) r) r true false) r z ∧
    Res q m (adjustBin q (flags (setRaw m1 r v) r true false) r) r z := by
  have hlt : z < q := by rw [hz]; exact Nat.mod_lt _ hq.pos
  have e1 : (setRaw m1 r v r).raw = v := by unfold setRaw; rw [put_same]
  constructor
  · rw [adjustBin_put hq _ _ (by rw [e1]; exact hv)]
    unfold flags setRaw
    simp only [put_put, put_same]
    rw [← hz]
    exact res_put hc (is_long (Plain.self hlt))
  · rw [adjustBin_put hq _ _ (by rw [flags_raw, e1]; exact hv)]
    unfold flags setRaw
    simp only [put_put, put_same]
    rw [← hz]
    exact res_put hc (is_long (Plain.self hlt))

theorem short_nat {e : El} {X : Nat} (h : Is q e X) (hX : X < q) (hl : e.long = false) (hs : 0 ≤ sg q X) : e.short = X ∧ X < 2 ^ 31 := by
  have s := h.isShort hl
  have e1 := sh_sg hq s (by omega) (by exact_mod_cast hX)
  have e2 : sg q (X : Int) = X := by unfold sg at hs ⊢; split <;> split at hs <;> omega
  have := s.2.1
  omega

theorem shl_mod (X n : Nat) : X * 2 ^ n % R q % 2 ^ qbits q = X * 2 ^ n % 2 ^ qbits q := by
  obtain ⟨k, hk, _⟩ := R_qbits hq
  exact Nat.mod_mod_of_dvd _ ⟨k, hk⟩

theorem res_rawshl (m : Mem) (r a n : Nat) {X : Nat} (hx : Is q (m a) X) (hX : X < q) :
    Res q m (rawshl q m r a n) r (X * 2 ^ n % 2 ^ qbits q % q : Nat) := by
  have hR := hq.lt_R
  have lng : ∀ {m1 : Mem}, Conv q m m1 → LN m1 a →
      Res q m (flags (adjustBin q (setRaw m1 r (rawshll q (m1 a).raw n)) r) r true false) r (X * 2 ^ n % 2 ^ qbits q % q : Nat) := by
    intro m1 hc hl
    have e : (m1 a).raw = X := (hl.plain (hc a _ hx)).nat hX
    rw [e, rawshll_eq (by omega)]
    exact (res_adjust hq hc r (Nat.mod_lt _ (by omega)) (by rw [shl_mod hq])).1
  unfold rawshl
  cases hl : (m a).long with
  | true => simp only [if_true]; exact lng (conv_normal hq m a) (normal_LN hl)
  | false =>
    simp only [Bool.false_eq_true, if_false]
    obtain ⟨n1, n2, n3, n4⟩ := isNegative_spec hq m a
    rw [n3 hl, n2 X hx (by omega) (by exact_mod_cast hX)]
    have ll : LN (toLong q m a) a := ⟨toLong_long m a, by rw [toLong_put, put_same]; unfold eLong; rw [hl]; rfl⟩
    by_cases hn : sg q X < 0
    · simp only [hn, decide_true, if_true]; exact lng (conv_toLong hq m a) ll
    · simp only [hn, decide_false, Bool.false_eq_true, if_false]
      by_cases h30 : 30 < n
      · simp only [h30, if_true]; exact lng (conv_toLong hq m a) ll
      · simp only [h30, if_false]
        obtain ⟨e1, e2⟩ := short_nat hq hx hX hl (by omega)
        have hle : 2 ^ n ≤ 2 ^ 30 := Nat.pow_le_pow_right (by norm_num) (by omega)
        have h2 : X * 2 ^ n < 2 ^ 31 * 2 ^ 30 := by
          calc X * 2 ^ n < 2 ^ 31 * 2 ^ n := Nat.mul_lt_mul_of_pos_right e2 (by positivity)
            _ ≤ _ := Nat.mul_le_mul_left _ hle
        have hb := hq.big
        have hqb := lt_qbits q
        have hlt : X * 2 ^ n < q := by norm_num at h2 hb; omega
        rw [Nat.mod_eq_of_lt (lt_trans hlt hqb), Nat.mod_eq_of_lt hlt, e1, show (X : Int) * 2 ^ n = ((X * 2 ^ n : Nat) : Int) by push_cast; rfl]
        refine res_store hq (Conv.refl _ _) r (by omega) ?_ (Int.ModEq.refl _)
        have : X * 2 ^ n < 2 ^ 63 := by norm_num at h2 ⊢; omega
        exact_mod_cast this

theorem res_rawshr (m : Mem) (r a n : Nat) {X : Nat} (hx : Is q (m a) X) (hX : X < q) : Res q m (rawshr q m r a n) r (X / 2 ^ n : Nat) := by
  have hR := hq.lt_R
  have hlt : X / 2 ^ n < q := lt_of_le_of_lt (Nat.div_le_self _ _) hX
  have lng : ∀ {m1 : Mem}, Conv q m m1 → LN m1 a → Res q m (flags (setRaw m1 r (rawshrl q (m1 a).raw n)) r true false) r (X / 2 ^ n : Nat) := by
    intro m1 hc hl
    have e : (m1 a).raw = X := (hl.plain (hc a _ hx)).nat hX
    rw [e, rawshrl_eq (by omega), flags_of_raw]
    exact res_put hc (is_long (Plain.self hlt))
  unfold rawshr
  cases hl : (m a).long with
  | true => simp only [if_true]; exact lng (conv_normal hq m a) (normal_LN hl)
  | false =>
    simp only [Bool.false_eq_true, if_false]
    obtain ⟨n1, n2, n3, n4⟩ := isNegative_spec hq m a
    rw [n3 hl, n2 X hx (by omega) (by exact_mod_cast hX)]
    have ll : LN (toLong q m a) a := ⟨toLong_long m a, by rw [toLong_put, put_same]; unfold eLong; rw [hl]; rfl⟩
    by_cases hn : sg q X < 0
    · simp only [hn, decide_true, if_true]; exact lng (conv_toLong hq m a) ll
    · simp only [hn, decide_false, Bool.false_eq_true, if_false]
      obtain ⟨e1, e2⟩ := short_nat hq hx hX hl (by omega)
      have hle : X / 2 ^ n ≤ X := Nat.div_le_self _ _
      have hs : (if n < 32 then setShort m r ((m a).short / 2 ^ n) else setShort m r 0) = setShort m r ((X / 2 ^ n : Nat) : Int) := by
        split
        · rw [e1]; push_cast; rfl
        · have : 2 ^ 31 ≤ 2 ^ n := Nat.pow_le_pow_right (by norm_num) (by omega)
          rw [Nat.div_eq_of_lt (by omega)]; rfl
      rw [hs, flags_of_short]
      have h5 : X / 2 ^ n < 2 ^ 31 := lt_of_le_of_lt hle e2
      generalize X / 2 ^ n = v at *
      exact res_put (Conv.refl _ _) (is_short ⟨by omega, by omega, Int.ModEq.refl _⟩)

omit hq in
theorem s_ne (q : Nat) : s1 ≠ s2 q ∧ s1 ≠ cBits q ∧ s2 q ≠ cBits q := by
  unfold s1 s2 cBits; omega

theorem res_shift {pos neg' : Mem → Nat → Nat → Nat → Mem} {fp fn : Nat → Nat → Nat}
    (hp : ∀ (m : Mem) (r a n : Nat) {X : Nat}, Is q (m a) X → X < q → Res q m (pos m r a n) r (fp X n : Nat))
    (hn : ∀ (m : Mem) (r a n : Nat) {X : Nat}, Is q (m a) X → X < q → Res q m (neg' m r a n) r (fn X n : Nat))
    (m : Mem) {r a b : Nat} (ha1 : a ≠ s1) (ha2 : a ≠ s2 q) (hb1 : b ≠ s1) (hb2 : b ≠ s2 q) {X Y : Nat} (hx : Is q (m a) X) (hy : Is q (m b) Y)
    (hc : Is q (m (cBits q)) (qbits q : Nat)) (hX : X < q) (hY : Y < q) :
    Res q m (shift q pos neg' m r a b) r ((if Y < qbits q then fp X Y else if q - Y < qbits q then fn X (q - Y) else 0 : Nat) : Int) := by
  obtain ⟨d1, d2, d3⟩ := s_ne q
  obtain ⟨n1, n2, n3, n4⟩ := isNegative_spec hq m b
  have tq := two_qbits hq
  have sm := qbits_small hq
  have hodd := hq.odd
  have hbig := hq.big
  have nn := n2 Y hy (by omega) (by exact_mod_cast hY)
  have sgB : sg q (qbits q : Nat) = (qbits q : Nat) := by unfold sg; rw [if_pos (by omega)]
  have sgS : ∀ Z : Nat, Z ≤ q / 2 → sg q (Z : Int) = Z := fun Z hZ => by unfold sg; rw [if_pos (by omega)]
  have z0 : ∀ {m1 : Mem}, (∀ c, c ≠ r → c ≠ s1 → c ≠ s2 q → ∀ t, Is q (m c) t → Is q (m1 c) t) → Res q m (zeroEl q m1 r) r ((0 : Nat) : Int) := by
    intro m1 h
    unfold zeroEl
    refine ⟨by rw [put_same]; exact is_short ⟨by norm_num, by norm_num, Int.ModEq.refl _⟩, fun c c1 c2 c3 t ht => ?_⟩
    rw [put_ne _ _ c1]; exact h c c1 c2 c3 t ht
  -- the comparison with the number of bits, then the shift
  have key : ∀ {m1 : Mem} {k Z : Nat} {f : Nat → Nat → Nat} {g : Mem → Nat → Nat → Nat → Mem}, k ≠ s1 →
      (∀ (m : Mem) (r a n : Nat) {X : Nat}, Is q (m a) X → X < q → Res q m (g m r a n) r (f X n : Nat)) →
      ConvOff q (s2 q) m m1 → Is q (m1 k) Z → Z ≤ q / 2 →
      Res q m (if (lt q m1 s1 k (cBits q) s1).short ≠ 0 then g (toInt q (lt q m1 s1 k (cBits q)) k).1 r a (toInt q (lt q m1 s1 k (cBits q)) k).2
        else zeroEl q (lt q m1 s1 k (cBits q)) r) r ((if Z < qbits q then f X Z else 0 : Nat) : Int) := by
    intro m1 k Z f g hk hg ho hZ hZq
    have hcb := ho (cBits q) d3.symm _ hc
    obtain ⟨m2, l1, l2⟩ := (cmp_spec hq m1 s1 k (cBits q) hZ hcb (by omega) (by omega) (by omega) (by omega)).2.2.1
    rw [l2, sgS Z hZq, sgB, setBool_put, put_same]
    simp only
    have off : ∀ c, c ≠ s1 → c ≠ s2 q → ∀ t, Is q (m c) t →
        Is q (put m2 s1 ⟨if decide ((Z : Int) < (qbits q : Nat)) = true then 1 else 0, false, false, (m2 s1).raw⟩ c) t := by
      intro c c2 c3 t ht
      rw [put_ne _ _ c2]
      exact l1 c t (ho c c3 t ht)
    by_cases hlt : Z < qbits q
    · rw [if_pos (by simp [hlt]), if_pos hlt]
      have hZ' : Is q (put m2 s1 ⟨if decide ((Z : Int) < (qbits q : Nat)) = true then 1 else 0, false, false, (m2 s1).raw⟩ k) Z := by
        rw [put_ne _ _ hk]; exact l1 k _ hZ
      obtain ⟨t1, t2, t3⟩ := toInt_spec hq _ k hZ' (by omega) (by omega) hk
      have t3 := t3 (by rw [sgS Z hZq]; omega)
      have t4 : (toInt q (put m2 s1 ⟨if decide ((Z : Int) < (qbits q : Nat)) = true then 1 else 0, false, false, (m2 s1).raw⟩) k).2 = Z := by
        have : ((toInt q (put m2 s1 ⟨if decide ((Z : Int) < (qbits q : Nat)) = true then 1 else 0, false, false, (m2 s1).raw⟩) k).2 : Int) = Z := by
          rw [t2, sgS Z hZq]; omega
        exact_mod_cast this
      rw [t4]
      obtain ⟨g1, g2⟩ := hg _ r a Z (t3 a _ (off a ha1 ha2 _ hx)) hX
      exact ⟨g1, fun c c1 c2 c3 t ht => g2 c c1 c2 c3 t (t3 c t (off c c2 c3 t ht))⟩
    · rw [if_neg (by simp [hlt]), if_neg hlt]
      exact z0 fun c c1 c2 c3 t ht => off c c2 c3 t ht
  unfold shift
  simp only
  rw [nn]
  by_cases hs : sg q Y < 0
  · have hY2 : q / 2 < Y := by unfold sg at hs; split at hs <;> omega
    rw [if_pos (by simpa using hs), if_neg (show ¬ Y < qbits q by omega)]
    obtain ⟨el, p1, p2⟩ := neg_spec hq (isNegative q m b).1 (s2 q) b (n1 b _ hy)
    refine key d1.symm hn ?_ ?_ (by omega)
    · intro c hc2 t ht
      rw [p1, put_ne _ _ hc2]; exact n1 c t ht
    · rw [p1, put_same]
      refine p2.congr ?_
      rw [Nat.cast_sub hY.le]
      simp [Int.ModEq, sub_eq_add_neg]
  · have hY2 : Y ≤ q / 2 := by unfold sg at hs; split at hs <;> omega
    rw [if_neg (by simpa using hs)]
    have hk := key hb1 hp n1.off (n1 b _ hy) hY2
    by_cases hlt : Y < qbits q
    · rw [if_pos hlt] at hk ⊢; exact hk
    · rw [if_neg hlt] at hk ⊢; rw [if_neg (show ¬ q - Y < qbits q by omega)]; exact hk

theorem res_shl (m : Mem) {r a b : Nat} (ha1 : a ≠ s1) (ha2 : a ≠ s2 q) (hb1 : b ≠ s1) (hb2 : b ≠ s2 q) {X Y : Nat} (hx : Is q (m a) X)
    (hy : Is q (m b) Y) (hc : Is q (m (cBits q)) (qbits q : Nat)) (hX : X < q) (hY : Y < q) :
    Res q m (shl q m r a b) r (shlSpec q X Y : Nat) :=
  res_shift hq (fun m r a n X h1 h2 => res_rawshl hq m r a n h1 h2) (fun m r a n X h1 h2 => res_rawshr hq m r a n h1 h2)
    m ha1 ha2 hb1 hb2 hx hy hc hX hY

theorem res_shr (m : Mem) {r a b : Nat} (ha1 : a ≠ s1) (ha2 : a ≠ s2 q) (hb1 : b ≠ s1) (hb2 : b ≠ s2 q) {X Y : Nat} (hx : Is q (m a) X)
    (hy : Is q (m b) Y) (hc : Is q (m (cBits q)) (qbits q : Nat)) (hX : X < q) (hY : Y < q) :
    Res q m (shr q m r a b) r (shrSpec q X Y : Nat) :=
  res_shift hq (fun m r a n X h1 h2 => res_rawshr hq m r a n h1 h2) (fun m r a n X h1 h2 => res_rawshl hq m r a n h1 h2)
    m ha1 ha2 hb1 hb2 hx hy hc hX hY

theorem res_bit2 {f : Nat → Nat → Nat} {β : Bool → Bool → Bool} (hb : ∀ x y j, (f x y).testBit j = β (x.testBit j) (y.testBit j))
    (hlt : ∀ k x y, x < 2 ^ k → y < 2 ^ k → f x y < 2 ^ k) (m : Mem) (r a b : Nat) {X Y : Nat} (hx : Is q (m a) X) (hy : Is q (m b) Y)
    (hX : X < q) (hY : Y < q) : Res q m (bit2 q f m r a b) r (f X Y : Nat) := by
  have hR := hq.lt_R
  have hqb := lt_qbits q
  have lng : ∀ {m1 : Mem}, Conv q m m1 → Res q m (bitLong q f m1 r a b) r (f X Y : Nat) := by
    intro m1 hc0
    have hc := hc0.trans (conv_prep hq m1 a b)
    obtain ⟨la, lb⟩ := prep q m1 a b
    unfold bitLong
    simp only
    generalize toNormal q (toLong q (toNormal q (toLong q m1 a) a) b) b = m2 at *
    have ea : (m2 a).raw = X := (la.plain (hc a _ hx)).nat hX
    have eb : (m2 b).raw = Y := (lb.plain (hc b _ hy)).nat hY
    rw [ea, eb, words2_eq hb hlt (by omega) (by omega)]
    have hf := hlt (qbits q) X Y (by omega) (by omega)
    obtain ⟨k, hk, hk0⟩ := R_qbits hq
    have hle : 2 ^ qbits q ≤ R q := by rw [hk]; exact Nat.le_mul_of_pos_right _ hk0
    obtain ⟨g1, g2⟩ := (res_adjust hq hc r (v := f X Y) (by omega) rfl).2
    refine ⟨g1.congr ?_, g2⟩
    rw [Nat.mod_eq_of_lt hf]
    exact Frg.natCast_modEq (Nat.mod_modEq _ _)
  unfold bit2
  cases hl : (m a).long with
  | true => simp only [if_true]; exact lng (Conv.refl _ _)
  | false =>
    simp only [Bool.false_eq_true, if_false]
    obtain ⟨n1, n2, n3, n4⟩ := isNegative_spec hq m a
    rw [n3 hl, n2 X hx (by omega) (by exact_mod_cast hX)]
    by_cases hn : sg q X < 0
    · simp only [hn, decide_true, if_true]; exact lng (Conv.refl _ _)
    · simp only [hn, decide_false, Bool.false_eq_true, if_false]
      cases hl2 : (m b).long with
      | true => simp only [if_true]; exact lng (Conv.refl _ _)
      | false =>
        simp only [Bool.false_eq_true, if_false]
        obtain ⟨k1, k2, k3, k4⟩ := isNegative_spec hq m b
        rw [k3 hl2, k2 Y hy (by omega) (by exact_mod_cast hY)]
        by_cases hn2 : sg q Y < 0
        · simp only [hn2, decide_true, if_true]; exact lng (Conv.refl _ _)
        · simp only [hn2, decide_false, Bool.false_eq_true, if_false]
          obtain ⟨e1, e2⟩ := short_nat hq hx hX hl (by omega)
          obtain ⟨e3, e4⟩ := short_nat hq hy hY hl2 (by omega)
          rw [e1, e3, Int.toNat_natCast, Int.toNat_natCast, flags_of_short]
          have := hlt 31 X Y e2 e4
          exact res_put (Conv.refl _ _) (is_short ⟨by omega, by omega, Int.ModEq.refl _⟩)

theorem res_bnot (m : Mem) (r a : Nat) {X : Nat} (hx : Is q (m a) X) (hX : X < q) : Res q m (bnot q m r a) r (2 ^ qbits q - 1 - X : Nat) := by
  have hR := hq.lt_R
  have hqb := lt_qbits q
  have hc := (conv_toLong hq m a).trans (conv_normal hq _ a)
  have hl : LN (toNormal q (toLong q m a) a) a := normal_LN (toLong_long m a)
  unfold bnot
  simp only
  generalize toNormal q (toLong q m a) a = m1 at *
  have e : (m1 a).raw = X := (hl.plain (hc a _ hx)).nat hX
  rw [e, notWords_eq (by omega)]
  obtain ⟨g1, g2⟩ := (res_adjust hq hc r (v := R q - 1 - X) (by omega) rfl).2
  refine ⟨g1.congr ?_, g2⟩
  obtain ⟨k, hk, hk0⟩ := R_qbits hq
  have : (R q - 1 - X) % 2 ^ qbits q = 2 ^ qbits q - 1 - X := by
    obtain ⟨j, rfl⟩ : ∃ j, k = j + 1 := ⟨k - 1, by omega⟩
    rw [hk, Nat.mul_succ, show 2 ^ qbits q * j + 2 ^ qbits q - 1 - X = (2 ^ qbits q - 1 - X) + 2 ^ qbits q * j by omega,
      Nat.add_mul_mod_self_left, Nat.mod_eq_of_lt (by omega)]
  rw [this]
  exact Frg.natCast_modEq (Nat.mod_modEq _ _)

end

end Verif.WFr
