import Verif.WFrIntLemmas
import Verif.GoldLemmas

/-! Lemmas on `Verif.WFrInt`: products by columns, and Montgomery reduction. -/

namespace Verif.WFr

set_option linter.unusedSimpArgs false
set_option linter.unusedVariables false

open Verif.Frg (w qbits n64 R limb)
open Finset (range)

/-! ## Limbs -/

theorem l32_zero {i x : Nat} (h : x < B ^ i) : l32 i x = 0 := by
  rw [l32_eq, Nat.div_eq_of_lt h, Nat.zero_mod]

theorem l32_zero' {n i x : Nat} (h : x < B ^ n) (hi : n ≤ i) : l32 i x = 0 :=
  l32_zero (lt_of_lt_of_le h (Nat.pow_le_pow_right B_pos hi))

theorem digits (x : Nat) : ∀ n, x % B ^ n = ∑ i ∈ range n, l32 i x * B ^ i
  | 0 => by simp [Nat.mod_one]
  | n + 1 => by rw [mod_succ, digits x n, Finset.sum_range_succ]

theorem digits_of {x n : Nat} (h : x < B ^ n) : ∑ i ∈ range n, l32 i x * B ^ i = x := by
  rw [← digits, Nat.mod_eq_of_lt h]

theorem l32_low {j k x m : Nat} (h : j < k) : l32 j (x + m * B ^ k) = l32 j x := by
  rw [l32_eq, l32_eq, show k = j + 1 + (k - j - 1) by omega, pow_add, pow_succ,
    show x + m * (B ^ j * B * B ^ (k - j - 1)) = x + B ^ j * (B * (m * B ^ (k - j - 1))) by ring,
    Nat.add_mul_div_left _ _ (pow_pos B_pos _), Nat.add_mul_mod_self_left]

theorem l32_at {k x m : Nat} (hx : x < B ^ k) (hm : m < B) : l32 k (x + m * B ^ k) = m := by
  rw [l32_eq, Nat.add_mul_div_right _ _ (pow_pos B_pos _), Nat.div_eq_of_lt hx, Nat.zero_add, Nat.mod_eq_of_lt hm]

/-- Column `k` of the product of two numbers. -/
def conv (x y k : Nat) : Nat := ∑ i ∈ range (k + 1), l32 i x * l32 (k - i) y

theorem conv_congr {x y y' k : Nat} (h : ∀ j ≤ k, l32 j y = l32 j y') : conv x y k = conv x y' k := by
  unfold conv
  refine Finset.sum_congr rfl fun i hi => ?_
  rw [h (k - i) (by omega)]

theorem cols_all {x y n : Nat} (hx : x < B ^ n) (hy : y < B ^ n) :
    ∑ k ∈ range (2 * n), conv x y k * B ^ k = x * y := by
  have h1 : ∑ k ∈ range (2 * n), conv x y k * B ^ k =
      ∑ k ∈ range (2 * n), ∑ i ∈ range (k + 1), (l32 i x * B ^ i) * (l32 (k - i) y * B ^ (k - i)) := by
    refine Finset.sum_congr rfl fun k _ => ?_
    unfold conv
    rw [Finset.sum_mul]
    refine Finset.sum_congr rfl fun i hi => ?_
    have : i ≤ k := by have := Finset.mem_range.mp hi; omega
    calc _ = l32 i x * l32 (k - i) y * B ^ (i + (k - i)) := by rw [Nat.add_sub_cancel' this]
      _ = _ := by rw [pow_add]; ring
  rw [h1, Finset.sum_range_diag_flip (2 * n) fun i j => (l32 i x * B ^ i) * (l32 j y * B ^ j)]
  have h2 : ∀ i ∈ range (2 * n), ∑ j ∈ range (2 * n - i), (l32 i x * B ^ i) * (l32 j y * B ^ j) = (l32 i x * B ^ i) * y := by
    intro i _
    by_cases hi : n ≤ i
    · simp [l32_zero' hx hi]
    · rw [← Finset.mul_sum]
      congr 1
      rw [← digits, Nat.mod_eq_of_lt (lt_of_lt_of_le hy (Nat.pow_le_pow_right B_pos (by omega)))]
  rw [Finset.sum_congr rfl h2, ← Finset.sum_mul, digits_of (lt_of_lt_of_le hx (Nat.pow_le_pow_right B_pos (by omega)))]

theorem conv_top {x y n k : Nat} (hx : x < B ^ n) (hy : y < B ^ n) (hk : 2 * n ≤ k + 1) : conv x y k = 0 := by
  unfold conv
  refine Finset.sum_eq_zero fun i hi => ?_
  by_cases h : n ≤ i
  · simp [l32_zero' hx h]
  · simp [l32_zero' hy (show n ≤ k - i by omega)]

theorem cols {x y n : Nat} (hn : 1 ≤ n) (hx : x < B ^ n) (hy : y < B ^ n) :
    ∑ k ∈ range (2 * n - 1), conv x y k * B ^ k = x * y := by
  rw [← cols_all hx hy, show 2 * n = 2 * n - 1 + 1 by omega, Finset.sum_range_succ, conv_top hx hy (by omega)]
  simp

theorem sum_map_range (f : Nat → Nat) (n : Nat) : ((List.range n).map f).sum = ∑ i ∈ range n, f i := rfl

theorem colLo_sum (x y k : Nat) : (colLo x y k).sum = conv x y k := rfl

theorem colHi_sum {n x y k : Nat} (hx : x < B ^ n) (hy : y < B ^ n) (hk : n ≤ k) : (colHi n x y k).sum = conv x y k := by
  unfold colHi conv
  rw [sum_map_range]
  by_cases h2 : 2 * n ≤ k + 1
  · rw [show 2 * n - 1 - k = 0 by omega]
    exact (conv_top hx hy h2).symm
  · have e : ∑ i ∈ range (k + 1), l32 i x * l32 (k - i) y = ∑ i ∈ Finset.Ico (k - n + 1) n, l32 i x * l32 (k - i) y := by
      symm
      refine Finset.sum_subset (fun i hi => ?_) (fun i hi hni => ?_)
      · simp at hi ⊢; omega
      · simp at hi hni
        by_cases h : n ≤ i
        · simp [l32_zero' hx h]
        · simp [l32_zero' hy (show n ≤ k - i by omega)]
    rw [e, Finset.sum_Ico_eq_sum_range, show n - (k - n + 1) = 2 * n - 1 - k by omega]
    refine Finset.sum_congr rfl fun j hj => ?_
    have := Finset.mem_range.mp hj
    rw [show k - (k - n + 1 + j) = n - 1 - j by omega]

/-! ## Two registers -/

/-- The number in two registers. -/
def val (s : Nat × Nat) : Nat := s.1 % B + B * s.2

/-- `X` adds `v` to the registers in a way that uses at most `n` products. -/
def Adds (X : Nat × Nat → Nat × Nat) (v n : Nat) : Prop :=
  ∀ s, s.2 + n * B < w → val (X s) = val s + v ∧ (X s).2 ≤ s.2 + n * B

theorem mac_adds {t : Nat} (ht : t ≤ (B - 1) * (B - 1)) : Adds (fun s => mac s t) t 1 := by
  intro s hs
  have hB := B_val
  have hw := w_val
  rw [hB] at ht
  have hm : s.1 % B < B := Nat.mod_lt _ B_pos
  simp only [mac, val]
  have hc : (s.1 % B + t) % w = s.1 % B + t := Nat.mod_eq_of_lt (by omega)
  rw [hc]
  generalize s.1 % B = a at *
  generalize s.2 = d at *
  have h1 := Nat.mod_add_div (a + t) B
  have h2 : (a + t) / B < B := Nat.div_lt_of_lt_mul (by rw [← w_eq]; omega)
  have h3 : (d + (a + t) / B) % w = d + (a + t) / B := Nat.mod_eq_of_lt (by omega)
  rw [h3]
  refine ⟨?_, by omega⟩
  rw [Nat.mul_add]
  omega

theorem Adds.comp {X Y : Nat × Nat → Nat × Nat} {v u n m : Nat} (hx : Adds X v n) (hy : Adds Y u m) :
    Adds (fun s => Y (X s)) (v + u) (n + m) := by
  intro s hs
  rw [Nat.add_mul] at hs
  obtain ⟨h1, h2⟩ := hx s (by omega)
  obtain ⟨h3, h4⟩ := hy (X s) (by omega)
  rw [Nat.add_mul]
  refine ⟨by rw [h3, h1]; ring, ?_⟩
  show (Y (X s)).2 ≤ _
  omega

theorem macs_adds : ∀ {ts : List Nat}, (∀ t ∈ ts, t ≤ (B - 1) * (B - 1)) → Adds (fun s => macs s ts) ts.sum ts.length
  | [], _ => fun s _ => by simp [macs]
  | t :: ts, h => by
    have h1 := (mac_adds (h t (by simp))).comp (macs_adds (ts := ts) fun u hu => h u (List.mem_cons_of_mem _ hu))
    simp only [List.sum_cons, List.length_cons]
    rw [Nat.add_comm ts.length 1]
    exact h1

theorem Adds.mono {X : Nat × Nat → Nat × Nat} {v n m : Nat} (h : Adds X v n) (hm : n ≤ m) : Adds X v m := by
  intro s hs
  have := Nat.mul_le_mul_right B hm
  obtain ⟨h1, h2⟩ := h s (by omega)
  exact ⟨h1, by omega⟩

theorem limbs_le (i x j y : Nat) : l32 i x * l32 j y ≤ (B - 1) * (B - 1) := by
  have h1 := l32_lt i x
  have h2 := l32_lt j y
  exact Nat.mul_le_mul (by omega) (by omega)

theorem mulCol_adds {n x y k : Nat} (hx : x < B ^ n) (hy : y < B ^ n) : Adds (mulCol n x y k) (conv x y k) n := by
  by_cases hk : k < n
  · have h : ∀ t ∈ colLo x y k, t ≤ (B - 1) * (B - 1) := by
      intro t ht
      simp only [colLo, List.mem_map] at ht
      obtain ⟨i, -, rfl⟩ := ht
      exact limbs_le _ _ _ _
    have := macs_adds h
    rw [colLo_sum] at this
    have e : mulCol n x y k = fun s => macs s (colLo x y k) := by funext s; simp [mulCol, hk]
    rw [e]
    exact this.mono (by simp [colLo]; omega)
  · have h : ∀ t ∈ colHi n x y k, t ≤ (B - 1) * (B - 1) := by
      intro t ht
      simp only [colHi, List.mem_map] at ht
      obtain ⟨i, -, rfl⟩ := ht
      exact limbs_le _ _ _ _
    have := macs_adds h
    rw [colHi_sum hx hy (by omega)] at this
    have e : mulCol n x y k = fun s => macs s (colHi n x y k) := by funext s; simp [mulCol, hk]
    rw [e]
    exact this.mono (by simp [colHi]; omega)

/-- Moving the registers down after a column. -/
theorem val_shift {s : Nat × Nat} (h : s.2 < w) : val s = s.1 % B + B * val (s.2, s.2 / B) ∧ (s.2 / B) < B := by
  refine ⟨?_, Nat.div_lt_of_lt_mul (by rw [← w_eq]; exact h)⟩
  simp only [val]
  rw [Nat.mod_add_div]

theorem room {n : Nat} (h : n ≤ 2 ^ 20) {d : Nat} (hd : d < B) : d + n * B < w := by
  have : n * B ≤ 2 ^ 20 * B := Nat.mul_le_mul_right _ h
  have hB := B_val
  have hw := w_val
  rw [hB] at this hd ⊢
  rw [hw]
  omega

theorem mulLoop_spec {n x y : Nat} (hn : n ≤ 2 ^ 20) (hx : x < B ^ n) (hy : y < B ^ n) : ∀ k,
    (mulLoop n x y k).2 + val (mulLoop n x y k).1 * B ^ k = ∑ j ∈ range k, conv x y j * B ^ j ∧ (mulLoop n x y k).1.2 < B
  | 0 => by simp [mulLoop, val]; exact B_pos
  | k + 1 => by
    obtain ⟨h1, h2⟩ := mulLoop_spec hn hx hy k
    obtain ⟨h3, h4⟩ := mulCol_adds (k := k) hx hy (mulLoop n x y k).1 (room hn h2)
    obtain ⟨h5, h6⟩ := val_shift (s := mulCol n x y k (mulLoop n x y k).1) (lt_of_le_of_lt h4 (room hn h2))
    rw [Finset.sum_range_succ, ← h1]
    simp only [mulLoop]
    refine ⟨?_, h6⟩
    rw [← B_pow]
    generalize mulCol n x y k (mulLoop n x y k).1 = s at *
    calc _ = (mulLoop n x y k).2 + (s.1 % B + B * val (s.2, s.2 / B)) * B ^ k := by rw [pow_succ]; ring
      _ = _ := by rw [← h5, h3]; ring

theorem intMul_eq {q x y : Nat} (h : Good q) (hx : x < R q) (hy : y < R q) : intMul q x y = x * y := by
  have hN := h.N_pos
  have hl := h.N_le
  rw [R_eq] at hx hy
  have hxy : x * y < B ^ (2 * N q) := by
    rw [two_mul, pow_add]; exact Nat.mul_lt_mul'' hx hy
  obtain ⟨h1, h2⟩ := mulLoop_spec (n := N q) (by omega) hx hy (2 * N q - 1)
  rw [cols (by omega) hx hy] at h1
  unfold intMul
  simp only
  rw [← B_pow, ← h1]
  congr 2
  generalize mulLoop (N q) x y (2 * N q - 1) = st at *
  have h3 : st.1.2 = 0 := by
    by_contra hne
    have : B ≤ val st.1 := by
      unfold val
      have : B * 1 ≤ B * st.1.2 := Nat.mul_le_mul_left _ (by omega)
      omega
    have h4 := Nat.mul_le_mul_right (B ^ (2 * N q - 1)) this
    rw [show B * B ^ (2 * N q - 1) = B ^ (2 * N q) by rw [← pow_succ']; congr 1; omega] at h4
    omega
  simp [val, h3]

/-! ## Montgomery product -/

theorem np32_spec {q : Nat} (h : q % 2 = 1) : B ∣ q * np32 q + 1 ∧ np32 q < B := by
  have hg : Int.gcd (q : Int) (B : Int) = 1 := by
    rw [Int.gcd_natCast_natCast]
    unfold B
    exact (Nat.coprime_pow_right_iff (by norm_num) _ _).mpr (Nat.coprime_two_right.mpr (Nat.odd_iff.mpr h))
  unfold np32
  cases hi : ModArith.modInverse q B with
  | none =>
    have := (ModArith.modInverse_isSome_iff q B).mpr hg
    simp [hi] at this
  | some i =>
    simp only
    have hBp : (0 : Int) < B := by exact_mod_cast B_pos
    obtain ⟨h0, h1⟩ := Gold.modInverse_range hBp hi
    have hs := ModArith.modInverse_spec hi
    have hne : i ≠ 0 := by
      rintro rfl
      rw [mul_zero] at hs
      have := (Int.modEq_iff_dvd.mp hs)
      have := Int.le_of_dvd (by norm_num) this
      have := B_val
      omega
    refine ⟨?_, by omega⟩
    have h2 : ((q * (B - i.toNat) + 1 : Nat) : Int) = q * B - (q * i - 1) := by
      push_cast
      rw [Nat.cast_sub (by omega), Int.toNat_of_nonneg h0]; ring
    have h3 : (B : Int) ∣ ((q * (B - i.toNat) + 1 : Nat) : Int) := by
      rw [h2]
      exact dvd_sub (Dvd.intro_left _ rfl) (Int.modEq_iff_dvd.mp hs.symm)
    exact_mod_cast h3

/-- The digit `m` clears the limb. -/
theorem clears {q a : Nat} (h : q % 2 = 1) : B ∣ a + q * (a * np32 q % B) := by
  have h1 := (np32_spec h).1
  have h2 : a + q * (a * np32 q % B) ≡ a * (q * np32 q + 1) [MOD B] := by
    calc a + q * (a * np32 q % B) ≡ a + q * (a * np32 q) [MOD B] :=
          Nat.ModEq.add_left _ (Nat.ModEq.mul_left _ (Nat.mod_modEq _ _))
      _ = a * (q * np32 q + 1) := by ring
  exact (Nat.modEq_zero_iff_dvd).mp (h2.trans ((Nat.modEq_zero_iff_dvd).mpr (Dvd.dvd.mul_left h1 _)))

section
variable {q : Nat} {X : Nat → Nat × Nat → Nat × Nat} {v : Nat → Nat}

theorem lowCols_spec (ho : q % 2 = 1) {n : Nat} (hn : n ≤ 2 ^ 18) (hX : ∀ k, Adds (X k) (v k) n) : ∀ k ≤ 2 ^ 18,
    val (lowCols q X k).1 * B ^ k = ∑ j ∈ range k, (v j + conv q (lowCols q X k).2 j) * B ^ j ∧
      (lowCols q X k).1.2 < B ∧ (lowCols q X k).2 < B ^ k
  | 0, _ => by simp [lowCols, val]; exact B_pos
  | k + 1, hk => by
    obtain ⟨i1, i2, i3⟩ := lowCols_spec ho hn hX k (by omega)
    simp only [lowCols]
    generalize lowCols q X k = st at *
    have hts : ∀ t ∈ (List.range k).map (fun i => l32 (i + 1) q * l32 (k - 1 - i) st.2), t ≤ (B - 1) * (B - 1) := by
      intro t ht
      simp only [List.mem_map] at ht
      obtain ⟨i, -, rfl⟩ := ht
      exact limbs_le _ _ _ _
    have a1 := (hX k).comp (macs_adds hts)
    have hm : ((macs (X k st.1) ((List.range k).map fun i => l32 (i + 1) q * l32 (k - 1 - i) st.2)).1 % B * np32 q % B) < B :=
      Nat.mod_lt _ B_pos
    obtain ⟨b1, b2⟩ := a1 st.1 (room (by simp; omega) i2)
    simp only [List.length_map, List.length_range] at b2
    simp only at b1
    generalize hs : macs (X k st.1) ((List.range k).map fun i => l32 (i + 1) q * l32 (k - 1 - i) st.2) = s at *
    generalize hme : s.1 % B * np32 q % B = m at *
    have hqm : l32 0 q * m ≤ (B - 1) * (B - 1) := by
      have := l32_lt 0 q
      exact Nat.mul_le_mul (by omega) (by omega)
    have hroom : s.2 + 1 * B < w := by
      have := room (n := n + k + 1) (by omega) i2
      rw [Nat.add_mul] at this
      omega
    obtain ⟨c1, c2⟩ := mac_adds hqm s hroom
    simp only at c1 c2
    generalize hs' : mac s (l32 0 q * m) = s' at *
    obtain ⟨d1, d2⟩ := val_shift (s := s') (by omega)
    have hclear : s'.1 % B = 0 := by
      have e1 : s'.1 % B = (s.1 % B + l32 0 q * m) % B := by
        rw [← hs']; simp only [mac]
        rw [w_eq, Nat.mod_mod_of_dvd _ (Dvd.intro _ rfl)]
      have e2 : l32 0 q = q % B := by rw [l32_eq]; simp
      have e3 : (s.1 % B + l32 0 q * m) % B = (s.1 % B + q * m) % B := by
        rw [e2, Nat.add_mod, Nat.mod_mul_mod, ← Nat.add_mod]
      rw [e1, e3, ← hme]
      exact Nat.mod_eq_zero_of_dvd (clears ho)
    rw [← B_pow]
    refine ⟨?_, d2, ?_⟩
    · rw [Finset.sum_range_succ]
      have f1 : ∑ j ∈ range k, (v j + conv q (st.2 + m * B ^ k) j) * B ^ j = ∑ j ∈ range k, (v j + conv q st.2 j) * B ^ j := by
        refine Finset.sum_congr rfl fun j hj => ?_
        rw [conv_congr (y' := st.2)]
        intro i hi
        exact l32_low (by have := Finset.mem_range.mp hj; omega)
      have f2 : conv q (st.2 + m * B ^ k) k =
          ((List.range k).map fun i => l32 (i + 1) q * l32 (k - 1 - i) st.2).sum + l32 0 q * m := by
        unfold conv
        rw [Finset.sum_range_succ', Nat.sub_zero, l32_at i3 hm, sum_map_range]
        congr 1
        refine Finset.sum_congr rfl fun i hi => ?_
        have := Finset.mem_range.mp hi
        rw [l32_low (by omega), show k - (i + 1) = k - 1 - i by omega]
      rw [f1, f2, ← i1]
      rw [hclear, Nat.zero_add] at d1
      calc _ = (B * val (s'.2, s'.2 / B)) * B ^ k := by rw [pow_succ]; ring
        _ = _ := by rw [← d1, c1, b1]; ring
    · have h1 : m + 1 ≤ B := hm
      have := Nat.mul_le_mul_right (B ^ k) h1
      rw [Nat.add_mul, Nat.one_mul] at this
      rw [pow_succ, mul_comm (B ^ k) B]
      omega

theorem highCols_spec {n m : Nat} (hn : n ≤ 2 ^ 18) (hN : N q ≤ 2 ^ 18) (hX : ∀ k, Adds (X k) (v k) n) (hq : q < B ^ N q) (hm : m < B ^ N q)
    {s0 : Nat × Nat} (h0 : val s0 * B ^ N q = ∑ j ∈ range (N q), (v j + conv q m j) * B ^ j) (h0' : s0.2 < B) : ∀ j,
    ((highCols q X m s0 j).2 + val (highCols q X m s0 j).1 * B ^ j) * B ^ N q = ∑ t ∈ range (N q + j), (v t + conv q m t) * B ^ t ∧
      (highCols q X m s0 j).1.2 < B ∧ (highCols q X m s0 j).2 < B ^ j
  | 0 => by simp [highCols]; exact ⟨h0, h0'⟩
  | j + 1 => by
    obtain ⟨i1, i2, i3⟩ := highCols_spec hn hN hX hq hm h0 h0' j
    simp only [highCols]
    generalize highCols q X m s0 j = st at *
    have hts : ∀ t ∈ colHi (N q) q m (N q + j), t ≤ (B - 1) * (B - 1) := by
      intro t ht
      simp only [colHi, List.mem_map] at ht
      obtain ⟨i, -, rfl⟩ := ht
      exact limbs_le _ _ _ _
    have a1 := (hX (N q + j)).comp (macs_adds hts)
    rw [colHi_sum hq hm (by omega)] at a1
    have hroom := room (n := n + (colHi (N q) q m (N q + j)).length) (by simp [colHi]; omega) i2
    obtain ⟨b1, b2⟩ := a1 st.1 hroom
    simp only at b1 b2
    generalize macs (X (N q + j) st.1) (colHi (N q) q m (N q + j)) = s at *
    obtain ⟨d1, d2⟩ := val_shift (s := s) (by omega)
    rw [← B_pow]
    refine ⟨?_, d2, ?_⟩
    · rw [← Nat.add_assoc, Finset.sum_range_succ, ← i1]
      calc _ = (st.2 + (s.1 % B + B * val (s.2, s.2 / B)) * B ^ j) * B ^ N q := by rw [pow_succ]; ring
        _ = _ := by rw [← d1, b1, pow_add]; ring
    · have h1 : s.1 % B + 1 ≤ B := Nat.mod_lt _ B_pos
      have := Nat.mul_le_mul_right (B ^ j) h1
      rw [Nat.add_mul, Nat.one_mul] at this
      rw [pow_succ, mul_comm (B ^ j) B]
      omega

/-- What the column code computes, for a product `z = ∑ v_k·B^k`. -/
theorem f1mCols_spec (h : Good q) {n z : Nat} (hn : n ≤ 2 ^ 18) (hX : ∀ k, Adds (X k) (v k) n)
    (hv : ∑ k ∈ range (2 * N q - 1), v k * B ^ k = z) (hz : z < q * R q) :
    f1mCols q X < q ∧ f1mCols q X * R q ≡ z [MOD q] := by
  have hN := h.N_pos
  have hl := h.N_le
  have hqR := h.lt_R
  have hq : q < B ^ N q := by rw [← R_eq]; exact hqR
  obtain ⟨l1, l2, l3⟩ := lowCols_spec h.odd hn hX (N q) (by omega)
  unfold f1mCols
  simp only
  generalize lowCols q X (N q) = lo at *
  obtain ⟨i1, i2, i3⟩ := highCols_spec hn (by omega) hX hq l3 l1 l2 (N q - 1)
  generalize highCols q X lo.2 lo.1 (N q - 1) = hi at *
  rw [show N q + (N q - 1) = 2 * N q - 1 by omega] at i1
  have e1 : ∑ t ∈ range (2 * N q - 1), (v t + conv q lo.2 t) * B ^ t = z + q * lo.2 := by
    rw [← hv, ← cols (by omega) hq l3, ← Finset.sum_add_distrib]
    exact Finset.sum_congr rfl fun t _ => by ring
  rw [e1] at i1
  rw [← B_pow]
  have e2 : B ^ N q = B ^ (N q - 1) * B := by rw [← pow_succ]; congr 1; omega
  generalize hr : hi.2 + hi.1.1 % B * B ^ (N q - 1) = r
  have hrR : r < R q := by
    rw [R_eq, ← hr, e2, mul_comm (B ^ (N q - 1)) B]
    have h1 : hi.1.1 % B + 1 ≤ B := Nat.mod_lt _ B_pos
    have := Nat.mul_le_mul_right (B ^ (N q - 1)) h1
    rw [Nat.add_mul, Nat.one_mul] at this
    omega
  have e3 : (r + hi.1.2 * R q) * R q = z + q * lo.2 := by
    rw [← i1, ← hr, R_eq]
    congr 1
    unfold val
    conv_lhs => rw [e2]
    ring
  have hRp : 0 < R q := by omega
  have hlt : r + hi.1.2 * R q < 2 * q := by
    have : q * lo.2 < q * R q := Nat.mul_lt_mul_of_pos_left (by rw [R_eq]; exact l3) h.pos
    have h2 : (r + hi.1.2 * R q) * R q < 2 * q * R q := by rw [e3, Nat.mul_assoc]; omega
    exact lt_of_mul_lt_mul_right h2 (Nat.zero_le _)
  have hmod : hi.1.2 % B = hi.1.2 := Nat.mod_eq_of_lt i2
  have hred := reduce h hlt
  rw [Nat.add_mul_mod_self_right, Nat.mod_eq_of_lt hrR, Nat.add_mul_div_right _ _ hRp, Nat.div_eq_of_lt hrR, Nat.zero_add] at hred
  rw [hmod, hred]
  have hz2 : (r + hi.1.2 * R q) * R q ≡ z [MOD q] := by
    rw [e3]; exact (Nat.ModEq.add_left z (Nat.modEq_zero_iff_dvd.mpr (Dvd.intro _ rfl)))
  split
  · next hge =>
    refine ⟨by omega, ?_⟩
    have h3 : (r + hi.1.2 * R q - q) * R q + q * R q = (r + hi.1.2 * R q) * R q := by
      rw [← Nat.add_mul, Nat.sub_add_cancel hge]
    have h4 : (r + hi.1.2 * R q - q) * R q + q * R q ≡ (r + hi.1.2 * R q - q) * R q [MOD q] :=
      Nat.ModEq.add_left _ (Nat.modEq_zero_iff_dvd.mpr (Dvd.intro _ rfl))
    rw [h3] at h4
    exact h4.symm.trans hz2
  · exact ⟨by omega, hz2⟩

end

theorem f1mMul_spec {q x y : Nat} (h : Good q) (hx : x < R q) (hy : y < R q) (hxy : x * y < q * R q) :
    f1mMul q x y < q ∧ f1mMul q x y * R q ≡ x * y [MOD q] := by
  have hN := h.N_pos
  have hl := h.N_le
  rw [R_eq] at hx hy
  exact f1mCols_spec h (n := N q) (by omega) (fun k => mulCol_adds hx hy) (cols (by omega) hx hy) hxy

/-! ### Squares -/

theorem sqPairs_sum {n x : Nat} (hx : x < B ^ n) (k : Nat) :
    2 * (sqPairs n x k).sum + (if k % 2 = 0 then l32 (k / 2) x * l32 (k / 2) x else 0) = conv x x k := by
  have hp : (sqPairs n x k).sum = ∑ i ∈ range ((k + 1) / 2), l32 i x * l32 (k - i) x := by
    unfold sqPairs
    simp only
    rw [sum_map_range]
    by_cases hk : k < n
    · simp [hk]
    · simp only [hk, if_false]
      by_cases h2 : (k + 1) / 2 ≤ k - n + 1
      · rw [show (k + 1) / 2 - (k - n + 1) = 0 by omega]
        symm
        refine Finset.sum_eq_zero fun i hi => ?_
        have := Finset.mem_range.mp hi
        rw [l32_zero' hx (show n ≤ k - i by omega)]; simp
      · have e : ∑ i ∈ range ((k + 1) / 2), l32 i x * l32 (k - i) x = ∑ i ∈ Finset.Ico (k - n + 1) ((k + 1) / 2), l32 i x * l32 (k - i) x := by
          symm
          refine Finset.sum_subset (fun i hi => ?_) (fun i hi hni => ?_)
          · simp at hi ⊢; omega
          · simp at hi hni
            rw [l32_zero' hx (show n ≤ k - i by omega)]; simp
        rw [e, Finset.sum_Ico_eq_sum_range]
        refine Finset.sum_congr rfl fun j hj => ?_
        rw [show k - (k - n + 1 + j) = k - (k - n + 1) - j by omega]
  have hsplit : conv x x k = ∑ i ∈ range ((k + 1) / 2), l32 i x * l32 (k - i) x + ∑ i ∈ Finset.Ico ((k + 1) / 2) (k + 1), l32 i x * l32 (k - i) x := by
    unfold conv
    rw [Finset.sum_range_add_sum_Ico _ (by omega)]
  have hrefl : ∑ i ∈ Finset.Ico (k / 2 + 1) (k + 1), l32 i x * l32 (k - i) x = ∑ i ∈ range ((k + 1) / 2), l32 i x * l32 (k - i) x := by
    rw [Finset.sum_Ico_eq_sum_range, show k + 1 - (k / 2 + 1) = (k + 1) / 2 by omega, ← Finset.sum_range_reflect]
    refine Finset.sum_congr rfl fun j hj => ?_
    have := Finset.mem_range.mp hj
    rw [show k / 2 + 1 + ((k + 1) / 2 - 1 - j) = k - j by omega, show k - (k - j) = j by omega, Nat.mul_comm]
  rw [hp, hsplit]
  split
  · next hk =>
    rw [Finset.sum_eq_sum_Ico_succ_bot (by omega), show (k + 1) / 2 + 1 = k / 2 + 1 by omega, hrefl,
      show (k + 1) / 2 = k / 2 by omega, show k - k / 2 = k / 2 by omega]
    ring
  · next hk =>
    rw [show Finset.Ico ((k + 1) / 2) (k + 1) = Finset.Ico (k / 2 + 1) (k + 1) by congr 1; omega, hrefl]
    ring

theorem sqCol_adds {n x k : Nat} (hn : n ≤ 2 ^ 16) (hx : x < B ^ n) : Adds (sqCol n x k) (conv x x k) (n + 4) := by
  intro old hold
  have hB := B_val
  have hw := w_val
  have hts : ∀ t ∈ sqPairs n x k, t ≤ (B - 1) * (B - 1) := by
    intro t ht
    simp only [sqPairs, List.mem_map] at ht
    obtain ⟨i, -, rfl⟩ := ht
    exact limbs_le _ _ _ _
  have hB1 : 2 ^ 32 ≤ B := le_refl _
  have hBw : 2 ^ 31 * B ≤ w := by rw [hB, hw]; norm_num
  have hlen : 2 * (sqPairs n x k).length ≤ n + 1 := by
    simp only [sqPairs, List.length_map, List.length_range]
    split <;> omega
  obtain ⟨a1, a2⟩ := macs_adds hts (0, 0) (room (by omega) B_pos)
  have hs := sqPairs_sum hx k
  simp only [val, Nat.zero_mod, Nat.zero_add, Nat.mul_zero] at a1 a2
  simp only [sqCol]
  generalize macs (0, 0) (sqPairs n x k) = s at *
  have hlenB : 2 * ((sqPairs n x k).length * B) ≤ (n + 1) * B := by
    rw [← Nat.mul_assoc]; exact Nat.mul_le_mul_right _ hlen
  have hnB : n * B ≤ 2 ^ 16 * B := Nat.mul_le_mul_right _ hn
  rw [Nat.add_mul] at hold hlenB
  have hm1 : s.1 % B < B := Nat.mod_lt _ B_pos
  have hc : s.1 % B * 2 % w = s.1 % B * 2 := Nat.mod_eq_of_lt (by omega)
  rw [hc]
  have hd1 : s.1 % B * 2 / B ≤ 1 := by rw [hB] at hm1 ⊢; omega
  have hd : (s.2 * 2 % w + s.1 % B * 2 / B) % w = s.2 * 2 + s.1 % B * 2 / B := by
    rw [Nat.mod_eq_of_lt (show s.2 * 2 < w by omega), Nat.mod_eq_of_lt (by omega)]
  rw [hd]
  have hv0 : val (s.1 % B * 2, s.2 * 2 + s.1 % B * 2 / B) = 2 * (sqPairs n x k).sum := by
    have := Nat.mod_add_div (s.1 % B * 2) B
    simp only [val]
    rw [← a1]
    calc _ = (s.1 % B * 2) % B + B * (s.1 % B * 2 / B) + B * (s.2 * 2) := by ring
      _ = _ := by rw [this]; ring
  have hd2 : s.2 * 2 + s.1 % B * 2 / B ≤ (n + 2) * B := by rw [Nat.add_mul]; omega
  generalize hss : (s.1 % B * 2, s.2 * 2 + s.1 % B * 2 / B) = s0 at *
  have hs02 : s0.2 ≤ (n + 2) * B := by rw [← hss]; exact hd2
  have hfin : ∀ s1 : Nat × Nat, val s1 = conv x x k → s1.2 ≤ (n + 3) * B →
      val ((s1.1 % B + old.1 % B) % w, (s1.2 + (s1.1 % B + old.1 % B) % w / B + old.2) % w) = val old + conv x x k ∧
        (s1.2 + (s1.1 % B + old.1 % B) % w / B + old.2) % w ≤ old.2 + (n + 4) * B := by
    intro s1 hv1 hb1
    rw [Nat.add_mul] at hb1
    have g1 : s1.1 % B < B := Nat.mod_lt _ B_pos
    have g2 : old.1 % B < B := Nat.mod_lt _ B_pos
    rw [Nat.mod_eq_of_lt (show s1.1 % B + old.1 % B < w by omega)]
    have g3 : (s1.1 % B + old.1 % B) / B ≤ 1 := by rw [hB] at g1 g2 ⊢; omega
    rw [Nat.mod_eq_of_lt (show s1.2 + (s1.1 % B + old.1 % B) / B + old.2 < w by omega)]
    refine ⟨?_, by rw [Nat.add_mul]; omega⟩
    have := Nat.mod_add_div (s1.1 % B + old.1 % B) B
    simp only [val] at hv1 ⊢
    rw [← hv1]
    calc _ = (s1.1 % B + old.1 % B) % B + B * ((s1.1 % B + old.1 % B) / B) + B * s1.2 + B * old.2 := by ring
      _ = _ := by rw [this]; ring
  by_cases hk2 : k % 2 = 0
  · simp only [hk2, if_true] at hs ⊢
    have hroom : s0.2 + 1 * B < w := by rw [Nat.add_mul] at hs02; omega
    obtain ⟨b1, b2⟩ := mac_adds (limbs_le (k / 2) x (k / 2) x) s0 hroom
    simp only at b1 b2
    exact hfin _ (by rw [b1, hv0, hs]) (by rw [Nat.add_mul] at *; omega)
  · simp only [hk2, if_false, Nat.add_zero] at hs ⊢
    exact hfin _ (by rw [hv0, hs]) (by rw [Nat.add_mul] at *; omega)

theorem f1mSquare_spec {q x : Nat} (h : Good q) (hx : x < R q) (hxx : x * x < q * R q) :
    f1mSquare q x < q ∧ f1mSquare q x * R q ≡ x * x [MOD q] := by
  have hN := h.N_pos
  have hl := h.N_le
  rw [R_eq] at hx
  exact f1mCols_spec h (n := N q + 4) (by omega) (fun k => sqCol_adds (by omega) hx) (cols (by omega) hx hx) hxx

/-! ## Montgomery reduction -/

theorem setLimb_val (t k v : Nat) : setLimb t k v + l32 k t * B ^ k = t + v % B * B ^ k := by
  unfold setLimb
  rw [← B_pow]
  have : l32 k t * B ^ k ≤ t := by
    rw [l32_eq]
    exact le_trans (Nat.mul_le_mul_right _ (Nat.mod_le _ _)) (Nat.div_mul_le_self _ _)
  omega

theorem rowLoop_spec (q : Nat) {m : Nat} (hm : m < B) (i t : Nat) : ∀ j,
    (rowLoop q m i t j).1 + (rowLoop q m i t j).2 / B * B ^ (i + j) = t + m * (q % B ^ j) * B ^ i ∧ (rowLoop q m i t j).2 / B < B
  | 0 => by simp [rowLoop, Nat.mod_one]; exact B_pos
  | j + 1 => by
    obtain ⟨i1, i2⟩ := rowLoop_spec q hm i t j
    simp only [rowLoop]
    generalize rowLoop q m i t j = p at *
    have h1 := l32_lt (i + j) p.1
    have h2 := limbs_le j q 0 m
    have h3 : l32 0 m = m := by rw [l32_eq]; simp [Nat.mod_eq_of_lt hm]
    rw [h3] at h2
    have hB := B_val
    have hw := w_val
    have h4 : (B - 1) * (B - 1) + 2 * B < w + 2 := by rw [hB, hw]; norm_num
    rw [Nat.mod_eq_of_lt (show l32 (i + j) p.1 + p.2 / B + l32 j q * m < w by omega)]
    have hs := setLimb_val p.1 (i + j) (l32 (i + j) p.1 + p.2 / B + l32 j q * m)
    refine ⟨?_, Nat.div_lt_of_lt_mul (by rw [← w_eq]; omega)⟩
    have hd := Nat.mod_add_div (l32 (i + j) p.1 + p.2 / B + l32 j q * m) B
    rw [mod_succ, ← Nat.add_assoc, pow_succ]
    generalize hc : l32 (i + j) p.1 + p.2 / B + l32 j q * m = c at *
    apply Nat.add_right_cancel (m := l32 (i + j) p.1 * B ^ (i + j))
    calc _ = (setLimb p.1 (i + j) c + l32 (i + j) p.1 * B ^ (i + j)) + B * (c / B) * B ^ (i + j) := by ring
      _ = p.1 + (c % B + B * (c / B)) * B ^ (i + j) := by rw [hs]; ring
      _ = (p.1 + p.2 / B * B ^ (i + j)) + l32 (i + j) p.1 * B ^ (i + j) + l32 j q * m * B ^ (i + j) := by rw [hd, ← hc]; ring
      _ = _ := by rw [i1, pow_add]; ring

theorem rows_spec {q : Nat} (h : Good q) (t : Nat) : ∀ i, ∃ M, M < B ^ i ∧
    (rows q t i).1 + (rows q t i).2 * R q = t + q * M ∧ B ^ i ∣ (rows q t i).1
  | 0 => ⟨0, by simp [rows]⟩
  | i + 1 => by
    obtain ⟨M, i0, i1, i2⟩ := rows_spec h t i
    simp only [rows]
    generalize rows q t i = p at *
    have hm : l32 i p.1 * np32 q % B < B := Nat.mod_lt _ B_pos
    generalize hme : l32 i p.1 * np32 q % B = m at *
    obtain ⟨r1, r2⟩ := rowLoop_spec q hm i p.1 (N q)
    generalize rowLoop q m i p.1 (N q) = r at *
    rw [← R_eq, Nat.mod_eq_of_lt h.lt_R, pow_add, ← R_eq] at r1
    rw [Nat.mod_eq_of_lt r2, ← B_pow]
    refine ⟨M + m * B ^ i, ?_, ?_, ?_⟩
    · have h1 : m + 1 ≤ B := hm
      have := Nat.mul_le_mul_right (B ^ i) h1
      rw [Nat.add_mul, Nat.one_mul] at this
      rw [pow_succ, mul_comm (B ^ i) B]
      omega
    · calc _ = (r.1 + r.2 / B * (B ^ i * R q)) + p.2 * R q := by ring
        _ = p.1 + p.2 * R q + m * q * B ^ i := by rw [r1]; ring
        _ = _ := by rw [i1]; ring
    · have h1 : B ^ (i + 1) ∣ p.1 + m * q * B ^ i := by
        obtain ⟨u, hu⟩ := i2
        have e : l32 i p.1 = u % B := by rw [l32_eq, hu, Nat.mul_div_cancel_left _ (pow_pos B_pos _)]
        rw [hu, show B ^ i * u + m * q * B ^ i = B ^ i * (u + q * m) by ring, pow_succ]
        refine Nat.mul_dvd_mul_left _ ?_
        have hcl := clears (a := u % B) h.odd
        rw [← e, hme, e] at hcl
        have h5 : u + q * m = (u % B + q * m) + B * (u / B) := by
          have := Nat.mod_add_div u B; omega
        rw [h5]
        exact (Nat.dvd_add_right hcl).mpr (Dvd.intro _ rfl)
      have h2 : B ^ (i + 1) ∣ r.2 / B * (B ^ i * R q) := by
        have : B ∣ R q := by rw [R_eq]; exact dvd_pow_self _ (by have := h.N_pos; omega)
        rw [pow_succ]
        exact Dvd.dvd.mul_left (Nat.mul_dvd_mul_left _ this) _
      rw [← r1] at h1
      exact (Nat.dvd_add_left h2).mp h1

theorem mReduct_spec {q t : Nat} (h : Good q) (ht : t < R q) : mReduct q t < q ∧ mReduct q t * R q ≡ t [MOD q] := by
  obtain ⟨M, h0, h1, h2⟩ := rows_spec h t (N q)
  rw [← R_eq] at h0 h2
  unfold mReduct
  simp only
  generalize rows q t (N q) = p at *
  obtain ⟨u, hu⟩ := h2
  have hR := h.lt_R
  have hRp : 0 < R q := by omega
  have hq := h.pos
  rw [hu, Nat.mul_div_cancel_left _ hRp]
  have hs : (p.2 + u) * R q = t + q * M := by rw [← h1, hu]; ring
  have hle : p.2 + u ≤ q := by
    have h3 : q * (M + 1) ≤ q * R q := Nat.mul_le_mul_left _ h0
    rw [Nat.mul_add, Nat.mul_one] at h3
    have h4 : (p.2 + u) * R q < (q + 1) * R q := by rw [hs, Nat.add_mul]; omega
    have := lt_of_mul_lt_mul_right h4 (Nat.zero_le _)
    omega
  rw [f1mAdd_eq h (by omega) (by omega) (by omega)]
  have hmod : (p.2 + u) * R q ≡ t [MOD q] := by
    rw [hs]; exact Nat.ModEq.add_left t (Nat.modEq_zero_iff_dvd.mpr (Dvd.intro _ rfl))
  split
  · next hge =>
    have e : p.2 + u = q := by omega
    rw [e, Nat.sub_self, Nat.zero_mul]
    refine ⟨hq, ?_⟩
    rw [e] at hmod
    exact ((Nat.modEq_zero_iff_dvd.mpr (Dvd.intro _ rfl)).symm).trans hmod
  · exact ⟨by omega, hmod⟩

end Verif.WFr
