import Verif.FrgLemmas

/-! Lemmas on the elements of `Verif.Frg`: each operation takes elements that stand for `x` and `y` to
one that stands for the result. -/

namespace Verif.Frg

set_option linter.unusedSimpArgs false
set_option linter.unusedVariables false

/-- Limbs below `q` that are `x` modulo `q`. -/
def Plain (q raw : Nat) (x : Int) : Prop := raw < q ∧ (raw : Int) ≡ x [ZMOD q]

/-- A 32-bit signed number that is `x` modulo `q`. -/
def Sh (q : Nat) (s x : Int) : Prop := -2 ^ 31 ≤ s ∧ s < 2 ^ 31 ∧ s ≡ x [ZMOD q]

/-- The element stands for `x`. -/
def Is (q : Nat) (e : El) (x : Int) : Prop :=
  if e.long then Plain q e.raw (if e.mont then x * R q else x)
  else Sh q e.short x ∧ (e.mont = true → Plain q e.raw (x * R q))

theorem Plain.congr {q raw : Nat} {x y : Int} (h : Plain q raw x) (e : x ≡ y [ZMOD q]) : Plain q raw y :=
  ⟨h.1, h.2.trans e⟩

theorem Is.congr {q : Nat} {a : El} {x y : Int} (h : Is q a x) (e : x ≡ y [ZMOD q]) : Is q a y := by
  unfold Is at *
  split at h
  · rename_i hl
    rw [if_pos hl]
    refine h.congr ?_
    split
    · exact e.mul_right _
    · exact e
  · rename_i hl
    rw [if_neg hl]
    exact ⟨⟨h.1.1, h.1.2.1, h.1.2.2.trans e⟩, fun hm => (h.2 hm).congr (e.mul_right _)⟩

theorem plain_of {q raw : Nat} {z : Int} (h : raw < q) (k : Int) (e : (raw : Int) = z + k * q) : Plain q raw z := by
  refine ⟨h, ?_⟩
  rw [e]
  exact (Int.modEq_iff_dvd.2 ⟨-k, by ring⟩)

theorem Plain.self {q raw : Nat} (h : raw < q) : Plain q raw raw := ⟨h, Int.ModEq.refl _⟩

/-- Limbs of the canonical value. -/
theorem Plain.eq {q raw : Nat} {x : Int} (h : Plain q raw x) (h0 : 0 ≤ x) (h1 : x < q) : (raw : Int) = x := by
  have := h.2
  unfold Int.ModEq at this
  rw [Int.emod_eq_of_lt (by omega) (by exact_mod_cast h.1), Int.emod_eq_of_lt h0 h1] at this
  exact this

/-! ### Raw operations -/

theorem rawAdd_eq {q a b : Nat} (ha : a < q) (hb : b < q) :
    rawAdd q a b = if q ≤ a + b then a + b - q else a + b := by
  have hR := lt_R q
  unfold rawAdd
  by_cases h : a + b < R q
  · simp only [Nat.mod_eq_of_lt h, Nat.div_eq_of_lt h, ne_eq, not_true_eq_false, false_or]
    split
    · exact subN_of_le h (by assumption)
    · rfl
  · have hm : (a + b) % R q = a + b - R q := by
      rw [Nat.mod_eq_sub_mod (by omega), Nat.mod_eq_of_lt (by omega)]
    have hd : (a + b) / R q ≠ 0 := (Nat.div_pos (by omega) (by omega)).ne'
    simp only [hm, ne_eq, hd, not_false_eq_true, true_or, if_true]
    rw [subN_of_lt (by omega) (by omega), if_pos (by omega)]
    omega

theorem plain_add {q a b : Nat} {x y : Int} (ha : Plain q a x) (hb : Plain q b y) :
    Plain q (rawAdd q a b) (x + y) := by
  have h1 := ha.1
  have h2 := hb.1
  refine Plain.congr ?_ (ha.2.add hb.2)
  rw [rawAdd_eq h1 h2]
  split
  · exact plain_of (by omega) (-1) (by push_cast [Nat.cast_sub (by assumption : q ≤ a + b)]; ring)
  · exact plain_of (by omega) 0 (by push_cast; ring)

theorem plain_addLS {q a b : Nat} {x y : Int} (ha : Plain q a x) (hb : Plain q b y) :
    Plain q (rawAddLS q a b) (x + y) := plain_add ha hb

theorem plain_sub {q a b : Nat} {x y : Int} (ha : Plain q a x) (hb : Plain q b y) :
    Plain q (rawSub q a b) (x - y) := by
  have h1 := ha.1
  have h2 := hb.1
  have hR := lt_R q
  refine Plain.congr ?_ (ha.2.sub hb.2)
  unfold rawSub
  by_cases h : a < b
  · simp only [h, if_true, subN_of_lt (by omega : b ≤ R q) h]
    have : (a + R q - b + q) % R q = a + q - b := by
      rw [show a + R q - b + q = (a + q - b) + R q by omega, Nat.add_mod_right, Nat.mod_eq_of_lt (by omega)]
    rw [this]
    exact plain_of (by omega) 1 (by push_cast [Nat.cast_sub (by omega : b ≤ a + q)]; ring)
  · simp only [h, if_false, subN_of_le (by omega : a < R q) (by omega : b ≤ a)]
    exact plain_of (by omega) 0 (by push_cast [Nat.cast_sub (by omega : b ≤ a)]; ring)

theorem plain_subSL {q a b : Nat} {x y : Int} (ha : Plain q a x) (hb : Plain q b y) :
    Plain q (rawSubSL q a b) (x - y) := plain_sub ha hb

theorem plain_subLS {q a b : Nat} {x y : Int} (ha : Plain q a x) (hb : Plain q b y) :
    Plain q (rawSubLS q a b) (x - y) := plain_sub ha hb

theorem plain_neg {q a : Nat} {x : Int} (ha : Plain q a x) : Plain q (rawNeg q a) (-x) := by
  have h1 := ha.1
  have hR := lt_R q
  refine Plain.congr ?_ (ha.2.neg)
  unfold rawNeg
  by_cases h : a = 0
  · subst h
    simp only [ne_eq, not_true_eq_false, if_false]
    exact plain_of (by omega) 0 (by simp)
  · simp only [ne_eq, h, not_false_eq_true, if_true, subN_of_le (lt_R q) h1.le]
    exact plain_of (by omega) 1 (by push_cast [Nat.cast_sub h1.le]; ring)

/-- `b` is not zero: `q` itself would be the result for two zeros. -/
theorem plain_negLS {q a b : Nat} {x y : Int} (hb0 : 0 < b) (ha : Plain q a x) (hb : Plain q b y) :
    Plain q (rawNegLS q a b) (-y - x) := by
  have h1 := ha.1
  have h2 := hb.1
  have hR := lt_R q
  refine Plain.congr ?_ ((hb.2.neg).sub ha.2)
  unfold rawNegLS
  have hqb : ¬ q < b := by omega
  simp only [subN_of_le hR h2.le, hqb, false_or]
  by_cases h : q - b < a
  · simp only [h, if_true, subN_of_lt (by omega : a ≤ R q) h]
    have : (q - b + R q - a + q) % R q = q - b + q - a := by
      rw [show q - b + R q - a + q = (q - b + q - a) + R q by omega, Nat.add_mod_right, Nat.mod_eq_of_lt (by omega)]
    rw [this]
    exact plain_of (by omega) 2 (by
      push_cast [Nat.cast_sub (by omega : a ≤ q - b + q), Nat.cast_sub (by omega : b ≤ q)]; ring)
  · simp only [h, if_false, subN_of_le (by omega : q - b < R q) (by omega : a ≤ q - b)]
    exact plain_of (by omega) 1 (by
      push_cast [Nat.cast_sub (by omega : a ≤ q - b), Nat.cast_sub (by omega : b ≤ q)]; ring)

/-! ### Montgomery form -/

theorem cancelR {q : Nat} (h : Good q) {x y : Int} (e : x * R q ≡ y * R q [ZMOD q]) : x ≡ y [ZMOD q] := by
  have hg : Int.gcd (q : Int) (R q : Int) = 1 := by
    rw [Int.gcd_natCast_natCast]; exact coprime_R h
  refine (Int.modEq_iff_dvd).2 ?_
  have h1 : (q : Int) ∣ (y - x) * R q := by
    have := Int.modEq_iff_dvd.1 e
    rwa [← sub_mul] at this
  exact Int.dvd_of_dvd_mul_left_of_gcd_one h1 hg

theorem natCast_modEq {q a b : Nat} (h : a ≡ b [MOD q]) : (a : Int) ≡ b [ZMOD q] :=
  (Int.natCast_modEq_iff).2 h

/-- The product of limbs is `z` if `x·y` is `z·R`. -/
theorem plain_mmul {q a b : Nat} (h : Good q) {x y z : Int} (ha : Plain q a x) (hb : Plain q b y)
    (hz : x * y ≡ z * R q [ZMOD q]) : Plain q (rawMMul q a b) z := by
  obtain ⟨h1, h2⟩ := rawMMul_spec h (lt_trans ha.1 (lt_R q)) hb.1
  refine ⟨h1, cancelR h ?_⟩
  have e := natCast_modEq h2
  push_cast at e
  exact e.trans ((ha.2.mul hb.2).trans hz)

theorem mmul_self {q a b : Nat} (h : Good q) {x y : Int} (ha : Plain q a x) (hb : Plain q b y) :
    rawMMul q a b < q ∧ (rawMMul q a b : Int) * R q ≡ x * y [ZMOD q] := by
  obtain ⟨h1, h2⟩ := rawMMul_spec h (lt_trans ha.1 (lt_R q)) hb.1
  have e := natCast_modEq h2
  push_cast at e
  exact ⟨h1, e.trans (ha.2.mul hb.2)⟩

theorem plain_r2 {q : Nat} (h : Good q) : Plain q (r2 q) (R q * R q) := by
  unfold r2
  refine ⟨Nat.mod_lt _ h.pos, ?_⟩
  have e : R q * R q = 2 ^ (64 * n64 q * 2) := by unfold R; rw [← pow_add]; congr 1; omega
  have := natCast_modEq (Nat.mod_modEq (2 ^ (64 * n64 q * 2)) q)
  rw [← e] at this ⊢
  push_cast at this ⊢
  exact this

theorem plain_r3 {q : Nat} (h : Good q) : Plain q (r3 q) (R q * R q * R q) := by
  unfold r3
  refine ⟨Nat.mod_lt _ h.pos, ?_⟩
  have e : R q * R q * R q = 2 ^ (64 * n64 q * 3) := by unfold R; rw [← pow_add, ← pow_add]; congr 1; omega
  have := natCast_modEq (Nat.mod_modEq (2 ^ (64 * n64 q * 3)) q)
  rw [← e] at this ⊢
  push_cast at this ⊢
  exact this

/-- A product followed by one with `R³` is in Montgomery form. -/
theorem plain_r3_mul {q m : Nat} (h : Good q) {z : Int} (hm : m < q) (e : (m : Int) * R q ≡ z [ZMOD q]) :
    Plain q (rawMMul q m (r3 q)) (z * R q) := by
  refine plain_mmul h (Plain.self hm) (plain_r3 h) ?_
  have := (e.mul_right (R q)).mul_right (R q)
  rw [show (m : Int) * (R q * R q * R q) = m * R q * R q * R q by ring]
  exact this

theorem short_lt {q : Nat} (h : Good q) {s : Int} (h1 : -2 ^ 31 ≤ s) (h2 : s < 2 ^ 31) :
    s.natAbs < w ∧ s.natAbs < q := by
  have hw : w = 18446744073709551616 := by unfold w; norm_num
  have := h.w_lt
  omega

theorem mmulShort_spec {q a : Nat} (h : Good q) {x y s : Int} (ha : Plain q a x) (hs : Sh q s y) :
    mmulShort q a s < q ∧ (mmulShort q a s : Int) * R q ≡ x * y [ZMOD q] := by
  obtain ⟨s1, s2, s3⟩ := hs
  obtain ⟨hw, _⟩ := short_lt h s1 s2
  unfold mmulShort
  by_cases hn : s < 0
  · rw [if_pos hn]
    obtain ⟨h1, h2⟩ := rawMMul1_spec h ha.1 (b := (-s).toNat) (by omega)
    have e := natCast_modEq h2
    have hc : (((-s).toNat : Nat) : Int) = -s := by omega
    rw [Nat.cast_mul, Nat.cast_mul, hc] at e
    obtain ⟨n1, n2⟩ := plain_neg (Plain.self h1)
    refine ⟨n1, (n2.mul_right _).trans ?_⟩
    rw [neg_mul]
    refine e.neg.trans ?_
    rw [show -((a : Int) * -s) = a * s by ring]
    exact ha.2.mul s3
  · rw [if_neg hn]
    obtain ⟨h1, h2⟩ := rawMMul1_spec h ha.1 (b := s.toNat) (by omega)
    have e := natCast_modEq h2
    have hc : ((s.toNat : Nat) : Int) = s := by omega
    rw [Nat.cast_mul, Nat.cast_mul, hc] at e
    exact ⟨h1, e.trans (ha.2.mul s3)⟩

theorem plain_fromMont {q a : Nat} (h : Good q) {x : Int} (ha : Plain q a (x * R q)) :
    Plain q (rawFromMontgomery q a) x := by
  obtain ⟨h1, h2⟩ := rawFromMontgomery_spec h ha.1
  exact ⟨h1, cancelR h ((by have := natCast_modEq h2; push_cast at this; exact this : _ ≡ _ [ZMOD q]).trans ha.2)⟩

theorem plain_s2l {q : Nat} (h : Good q) {v x : Int} (h1 : -2 ^ 63 ≤ v) (h2 : v < 2 ^ 63) (e : v ≡ x [ZMOD q]) :
    Plain q (rawCopyS2L q v) x := by
  have hR := lt_R q
  have hq : 2 ^ 64 < q := h.big
  refine Plain.congr ?_ e
  unfold rawCopyS2L
  by_cases hn : v < 0
  · rw [if_pos hn]
    have : (R q - v.natAbs + q) % R q = q - v.natAbs := by
      rw [show R q - v.natAbs + q = (q - v.natAbs) + R q by omega, Nat.add_mod_right, Nat.mod_eq_of_lt (by omega)]
    rw [this]
    exact plain_of (by omega) 1 (by omega)
  · rw [if_neg hn]
    exact plain_of (by omega) 0 (by omega)

theorem Is.long {q : Nat} {a : El} {x : Int} (h : Is q a x) (hl : a.long = true) :
    Plain q a.raw (if a.mont then x * R q else x) := by
  unfold Is at h; rwa [if_pos hl] at h

theorem Is.longPlain {q : Nat} {a : El} {x : Int} (h : Is q a x) (hl : a.long = true) (hm : a.mont = false) :
    Plain q a.raw x := by
  have := h.long hl; rwa [hm] at this

theorem Is.isMont {q : Nat} {a : El} {x : Int} (h : Is q a x) (hm : a.mont = true) :
    Plain q a.raw (x * R q) := by
  unfold Is at h
  rw [hm] at h
  split at h
  · exact h
  · exact h.2 rfl

theorem Is.isShort {q : Nat} {a : El} {x : Int} (h : Is q a x) (hl : a.long = false) : Sh q a.short x := by
  unfold Is at h
  rw [hl] at h
  exact h.1

theorem toNormal_raw {q : Nat} (hq : Good q) (r : El) {a : El} {x : Int} (h : Is q a x) (hl : a.long = true) :
    Plain q (toNormal q r a).raw x ∧ (toNormal q r a).long = true ∧ (toNormal q r a).mont = false := by
  unfold toNormal
  cases hm : a.mont with
  | true =>
    simp only [hl, hm, Bool.and_self, if_true]
    exact ⟨plain_fromMont hq (h.isMont hm), trivial, trivial⟩
  | false =>
    simp only [hl, hm, Bool.and_false, Bool.false_eq_true, if_false]
    exact ⟨h.longPlain hl hm, trivial, trivial⟩

theorem toLongNormal_raw {q : Nat} (hq : Good q) (r : El) {a : El} {x : Int} (h : Is q a x) :
    Plain q (toLongNormal q r a).raw x ∧ (toLongNormal q r a).long = true ∧ (toLongNormal q r a).mont = false := by
  unfold toLongNormal
  cases hl : a.long with
  | true =>
    cases hm : a.mont with
    | true =>
      simp only [if_true]
      exact ⟨plain_fromMont hq (h.isMont hm), trivial, trivial⟩
    | false =>
      simp only [if_true, Bool.false_eq_true, if_false]
      exact ⟨h.longPlain hl hm, hl, hm⟩
  | false =>
    simp only [Bool.false_eq_true, if_false, longOf]
    obtain ⟨s1, s2, s3⟩ := h.isShort hl
    exact ⟨plain_s2l hq (by omega) (by omega) s3, trivial, trivial⟩

theorem toMontgomery_raw {q : Nat} (hq : Good q) (r : El) {a : El} {x : Int} (h : Is q a x) :
    Plain q (toMontgomery q r a).raw (x * R q) := by
  unfold toMontgomery
  cases hm : a.mont with
  | true => simpa only [if_true] using h.isMont hm
  | false =>
    cases hl : a.long with
    | true =>
      simp only [Bool.false_eq_true, if_false, if_true]
      refine plain_mmul hq (h.longPlain hl hm) (plain_r2 hq) ?_
      rw [mul_assoc]
    | false =>
      simp only [Bool.false_eq_true, if_false]
      have hs := h.isShort hl
      obtain ⟨m1, m2⟩ := mmulShort_spec hq (plain_r2 hq) hs
      have key : Plain q (mmulShort q (r2 q) a.short) (x * R q) := by
        refine ⟨m1, cancelR hq (m2.trans ?_)⟩
        rw [show (R q : Int) * R q * x = x * R q * R q by ring]
      unfold mmulShort at key
      split
      · rename_i hn; rwa [if_pos hn] at key
      · rename_i hn; rwa [if_neg hn] at key

/-! ### Building elements -/

theorem is_long {q raw : Nat} {s x : Int} (h : Plain q raw x) : Is q ⟨s, true, false, raw⟩ x := by
  unfold Is; simpa using h

theorem is_mont {q raw : Nat} {s x : Int} (h : Plain q raw (x * R q)) : Is q ⟨s, true, true, raw⟩ x := by
  unfold Is; simpa using h

theorem is_short {q raw : Nat} {s x : Int} (h : Sh q s x) : Is q ⟨s, false, false, raw⟩ x := by
  unfold Is; simpa using h

theorem is_longOf {q : Nat} (hq : Good q) {v x : Int} (h1 : -2 ^ 63 ≤ v) (h2 : v < 2 ^ 63) (e : v ≡ x [ZMOD q]) :
    Is q (longOf q v) x := is_long (plain_s2l hq h1 h2 e)

theorem is_shortOr {q : Nat} (hq : Good q) (r : El) {v x : Int} (h1 : -2 ^ 32 ≤ v) (h2 : v < 2 ^ 32)
    (e : v ≡ x [ZMOD q]) : Is q (shortOr q r v) x := by
  unfold shortOr hasAdd32Overflow
  split
  · exact is_longOf hq (by omega) (by omega) e
  · rename_i hn
    refine is_short ⟨?_, ?_, e⟩ <;>
    · simp only [Bool.or_eq_true, beq_iff_eq, not_or] at hn
      omega

/-! ### Operations on elements -/

seal rawMMul mmulShort r3 r2 R rawFromMontgomery rawAdd rawSub rawAddLS rawSubLS rawSubSL rawNegLS

section
variable {q : Nat} (hq : Good q) (r : El) {a b : El} {x y : Int} (ha : Is q a x) (hb : Is q b y)
include hq ha hb

theorem is_mul : Is q (mul q r a b) (x * y) := by
  have pm : ∀ {a b : El} {x y : Int}, Is q a x → Is q b y → a.long = true → a.mont = false → b.mont = true →
      Plain q (rawMMul q a.raw b.raw) (x * y) := fun ha hb hl hm hm' =>
    plain_mmul hq (ha.longPlain hl hm) (hb.isMont hm') (by rw [mul_assoc])
  have mp : a.mont = true → b.long = true → b.mont = false → Plain q (rawMMul q a.raw b.raw) (x * y) :=
    fun hm hl hm' => plain_mmul hq (ha.isMont hm) (hb.longPlain hl hm') (by
      rw [show x * (R q : Int) * y = x * y * R q by ring])
  have mm : a.mont = true → b.mont = true → Plain q (rawMMul q a.raw b.raw) (x * y * R q) :=
    fun hm hm' => plain_mmul hq (ha.isMont hm) (hb.isMont hm') (by
      rw [show x * (R q : Int) * (y * R q) = x * y * R q * R q by ring])
  have sr : ∀ {a b : El} {x y : Int}, Is q a x → Is q b y → a.mont = true → b.long = false →
      Plain q (mmulShort q a.raw b.short) (x * y) := by
    intro a b x y ha hb hm hl
    obtain ⟨m1, m2⟩ := mmulShort_spec hq (ha.isMont hm) (hb.isShort hl)
    refine ⟨m1, cancelR hq (m2.trans ?_)⟩
    rw [show x * (R q : Int) * y = x * y * R q by ring]
  have lr : ∀ {a b : El} {x y : Int}, Is q a x → Is q b y → a.long = true → a.mont = false → b.long = false →
      Plain q (rawMMul q (mmulShort q a.raw b.short) (r3 q)) (x * y * R q) := by
    intro a b x y ha hb hl hm hl'
    obtain ⟨m1, m2⟩ := mmulShort_spec hq (ha.longPlain hl hm) (hb.isShort hl')
    exact plain_r3_mul hq m1 m2
  unfold mul
  cases al : a.long <;> cases bl : b.long <;> cases am : a.mont <;> cases bm : b.mont <;>
    simp only [Bool.false_eq_true, if_true, if_false, mulToMont, mulToPlain, mul_l1nl2n, mul_l1ms2n, mul_l1ns2n,
      mul_s1nl2m, mul_s1nl2n, mul_s1s2]
  all_goals first
    | exact is_mont (mm am bm)
    | exact is_long (pm ha hb al am bm)
    | exact is_long (mp am bl bm)
    | exact is_long (sr ha hb am bl)
    | exact is_mont (lr ha hb al am bl)
    | (rw [mul_comm x y]; exact is_long (sr hb ha bm al))
    | (rw [mul_comm x y]; exact is_mont (lr hb ha bl bm al))
    | (obtain ⟨m1, m2⟩ := mmul_self hq (ha.longPlain al am) (hb.longPlain bl bm)
       exact is_mont (plain_r3_mul hq m1 m2))
    | (obtain ⟨s1, s2, s3⟩ := ha.isShort al
       obtain ⟨t1, t2, t3⟩ := hb.isShort bl
       refine is_longOf hq ?_ ?_ (s3.mul t3) <;> nlinarith)

omit ha in
theorem plain_short_pos (bl : b.long = false) (h : 0 ≤ b.short) : Plain q b.short.toNat y := by
  obtain ⟨t1, t2, t3⟩ := hb.isShort bl
  have := (short_lt hq t1 t2).2
  refine Plain.congr ?_ t3
  exact plain_of (by omega) 0 (by omega)

omit ha in
theorem plain_short_neg (bl : b.long = false) (h : b.short < 0) : Plain q (-b.short).toNat (-y) := by
  obtain ⟨t1, t2, t3⟩ := hb.isShort bl
  have := (short_lt hq t1 t2).2
  refine Plain.congr ?_ t3.neg
  exact plain_of (by omega) 0 (by omega)

theorem is_add : Is q (add q r a b) (x + y) := by
  have hs := fun (al : a.long = false) (bl : b.long = false) => by
    obtain ⟨s1, s2, s3⟩ := ha.isShort al
    obtain ⟨t1, t2, t3⟩ := hb.isShort bl
    exact is_shortOr (v := a.short + b.short) hq r (by omega) (by omega) (s3.add t3)
  have hls : ∀ {a b : El} {x y : Int}, Is q a x → Is q b y → a.long = true → a.mont = false → b.long = false →
      Plain q (if 0 ≤ b.short then rawAddLS q a.raw b.short.toNat else rawSubLS q a.raw (-b.short).toNat) (x + y) := by
    intro a b x y ha hb al am bl
    split
    · exact plain_addLS (ha.longPlain al am) (plain_short_pos hq hb bl (by assumption))
    · have := plain_subLS (ha.longPlain al am) (plain_short_neg hq hb bl (by omega))
      rwa [sub_neg_eq_add] at this
  have e : x * (R q : Int) + y * R q = (x + y) * R q := by ring
  unfold add
  cases al : a.long <;> cases bl : b.long <;> cases am : a.mont <;> cases bm : b.mont <;>
    simp only [Bool.false_eq_true, if_true, if_false, add_mm, add_nm, add_mn, add_l1nl2n, add_l1ns2, add_s1l2n, add_s1s2]
  all_goals first
    | exact hs al bl
    | exact is_mont (e ▸ plain_add (ha.isMont am) (hb.isMont bm))
    | exact is_mont (e ▸ plain_add (toMontgomery_raw hq r ha) (hb.isMont bm))
    | exact is_mont (e ▸ plain_add (ha.isMont am) (toMontgomery_raw hq r hb))
    | exact is_long (plain_add (ha.longPlain al am) (hb.longPlain bl bm))
    | exact is_long (hls ha hb al am bl)
    | (rw [add_comm x y]; exact is_long (hls hb ha bl bm al))

theorem is_sub : Is q (sub q r a b) (x - y) := by
  have hs := fun (al : a.long = false) (bl : b.long = false) => by
    obtain ⟨s1, s2, s3⟩ := ha.isShort al
    obtain ⟨t1, t2, t3⟩ := hb.isShort bl
    exact is_shortOr (v := a.short - b.short) hq r (by omega) (by omega) (s3.sub t3)
  have hls : a.long = true → a.mont = false → b.long = false →
      Plain q (if b.short < 0 then rawAddLS q a.raw (-b.short).toNat else rawSubLS q a.raw b.short.toNat) (x - y) := by
    intro al am bl
    split
    · have := plain_addLS (ha.longPlain al am) (plain_short_neg hq hb bl (by assumption))
      rwa [← sub_eq_add_neg] at this
    · exact plain_subLS (ha.longPlain al am) (plain_short_pos hq hb bl (by omega))
  have hsl : a.long = false → b.long = true → b.mont = false →
      Plain q (if 0 ≤ a.short then rawSubSL q a.short.toNat b.raw else rawNegLS q b.raw (-a.short).toNat) (x - y) := by
    intro al bl bm
    split
    · exact plain_subSL (plain_short_pos hq ha al (by assumption)) (hb.longPlain bl bm)
    · have := plain_negLS (by omega) (hb.longPlain bl bm) (plain_short_neg hq ha al (by omega))
      rwa [neg_neg] at this
  have e : x * (R q : Int) - y * R q = (x - y) * R q := by ring
  unfold sub
  cases al : a.long <;> cases bl : b.long <;> cases am : a.mont <;> cases bm : b.mont <;>
    simp only [Bool.false_eq_true, if_true, if_false, sub_mm, sub_nm, sub_mn, sub_l1nl2n, sub_l1ns2, sub_s1l2n, sub_s1s2]
  all_goals first
    | exact hs al bl
    | exact is_mont (e ▸ plain_sub (ha.isMont am) (hb.isMont bm))
    | exact is_mont (e ▸ plain_sub (toMontgomery_raw hq r ha) (hb.isMont bm))
    | exact is_mont (e ▸ plain_sub (ha.isMont am) (toMontgomery_raw hq r hb))
    | exact is_long (plain_sub (ha.longPlain al am) (hb.longPlain bl bm))
    | exact is_long (hls al am bl)
    | exact is_long (hsl al bl bm)

omit hb in
theorem is_neg : Is q (neg q r a) (-x) := by
  unfold neg
  cases al : a.long with
  | true =>
    simp only [if_true]
    cases am : a.mont with
    | true =>
      have := is_mont (s := a.short) (x := -x) (by rw [neg_mul]; exact plain_neg (ha.isMont am))
      exact this
    | false =>
      exact is_long (plain_neg (ha.longPlain al am))
  | false =>
    simp only [Bool.false_eq_true, if_false]
    obtain ⟨s1, s2, s3⟩ := ha.isShort al
    exact is_shortOr hq r (by omega) (by omega) s3.neg

end

/-! ### Comparisons -/

/-- The signed value of a canonical number. -/
def sg (q : Nat) (x : Int) : Int := if x ≤ (q / 2 : Nat) then x else x - q

theorem sh_sg {q : Nat} (hq : Good q) {s x : Int} (h : Sh q s x) (h0 : 0 ≤ x) (h1 : x < q) : sg q x = s := by
  obtain ⟨s1, s2, s3⟩ := h
  have hb : (2 : Int) ^ 64 < q := by exact_mod_cast hq.big
  unfold Int.ModEq at s3
  rw [Int.emod_eq_of_lt h0 h1] at s3
  unfold sg
  by_cases hn : s < 0
  · have : s % (q : Int) = s + q := by
      rw [← Int.add_emod_right, Int.emod_eq_of_lt (by omega) (by omega)]
    rw [if_neg (by push_cast; omega)]; omega
  · rw [Int.emod_eq_of_lt (by omega) (by omega)] at s3
    rw [if_pos (by push_cast; omega)]; omega

theorem sg_inj {q : Nat} {x y : Int} (hx : 0 ≤ x) (hx' : x < q) (hy : 0 ≤ y) (hy' : y < q) : sg q x = sg q y ↔ x = y := by
  unfold sg
  constructor
  · split <;> split <;> push_cast at * <;> omega
  · rintro rfl; rfl

theorem rltL1L2_eq {q a b : Nat} (ha : a < q) (hb : b < q) : rltL1L2 q a b = decide (sg q a < sg q b) := by
  unfold rltL1L2 rltRaw half sg
  by_cases h1 : q / 2 < a <;> by_cases h2 : q / 2 < b <;>
    simp only [h1, h2, if_true, if_false] <;>
    (rw [eq_comm]; simp only [decide_eq_decide, decide_eq_true_eq, decide_eq_false_iff_not]; split <;> split <;> omega)

theorem rgtL1L2_eq {q a b : Nat} (ha : a < q) (hb : b < q) : rgtL1L2 q a b = decide (sg q b < sg q a) := by
  unfold rgtL1L2 rgtRaw half sg
  by_cases h1 : q / 2 < a <;> by_cases h2 : q / 2 < b <;>
    simp only [h1, h2, if_true, if_false] <;>
    (rw [eq_comm]; simp only [decide_eq_decide, decide_eq_true_eq, decide_eq_false_iff_not]; split <;> split <;> omega)

theorem plain_eq_iff {q a b : Nat} {u v : Int} (ha : Plain q a u) (hb : Plain q b v) : a = b ↔ u ≡ v [ZMOD q] := by
  constructor
  · rintro rfl; exact ha.2.symm.trans hb.2
  · intro h
    have e : (a : Int) ≡ b [ZMOD q] := ha.2.trans (h.trans hb.2.symm)
    unfold Int.ModEq at e
    rw [Int.emod_eq_of_lt (by omega) (by exact_mod_cast ha.1), Int.emod_eq_of_lt (by omega) (by exact_mod_cast hb.1)] at e
    exact_mod_cast e

theorem canon_iff {q : Nat} {x y : Int} (hx : 0 ≤ x) (hx' : x < q) (hy : 0 ≤ y) (hy' : y < q) :
    x ≡ y [ZMOD q] ↔ x = y := by
  unfold Int.ModEq
  rw [Int.emod_eq_of_lt hx hx', Int.emod_eq_of_lt hy hy']

section
variable {q : Nat} (hq : Good q) (r : El) {a b : El} {x y : Int} (ha : Is q a x) (hb : Is q b y)
  (x0 : 0 ≤ x) (x1 : x < q) (y0 : 0 ≤ y) (y1 : y < q)
include hq ha hb x0 x1 y0 y1

theorem rlt_eq : rlt q r a b = decide (sg q x < sg q y) := by
  have key : ∀ {u v : Nat}, Plain q u x → Plain q v y → rltL1L2 q u v = decide (sg q x < sg q y) := by
    intro u v hu hv
    rw [rltL1L2_eq hu.1 hv.1, hu.eq x0 x1, hv.eq y0 y1]
  unfold rlt
  cases al : a.long <;> cases bl : b.long <;> cases am : a.mont <;> cases bm : b.mont <;>
    simp only [Bool.false_eq_true, if_true, if_false]
  all_goals first
    | (rw [sh_sg hq (ha.isShort al) x0 x1, sh_sg hq (hb.isShort bl) y0 y1]; done)
    | exact key (toNormal_raw hq r ha al).1 (toNormal_raw hq r hb bl).1
    | exact key (toNormal_raw hq r ha al).1 (hb.longPlain bl bm)
    | exact key (ha.longPlain al am) (toNormal_raw hq r hb bl).1
    | exact key (ha.longPlain al am) (hb.longPlain bl bm)
    | exact key (toNormal_raw hq r ha al).1 (toLongNormal_raw hq r hb).1
    | exact key (ha.longPlain al am) (toLongNormal_raw hq r hb).1
    | exact key (toLongNormal_raw hq r ha).1 (toNormal_raw hq r hb bl).1
    | exact key (toLongNormal_raw hq r ha).1 (hb.longPlain bl bm)

theorem rgt_eq : rgt q r a b = decide (sg q y < sg q x) := by
  have key : ∀ {u v : Nat}, Plain q u x → Plain q v y → rgtL1L2 q u v = decide (sg q y < sg q x) := by
    intro u v hu hv
    rw [rgtL1L2_eq hu.1 hv.1, hu.eq x0 x1, hv.eq y0 y1]
  unfold rgt
  cases al : a.long <;> cases bl : b.long <;> cases am : a.mont <;> cases bm : b.mont <;>
    simp only [Bool.false_eq_true, if_true, if_false]
  all_goals first
    | (rw [sh_sg hq (ha.isShort al) x0 x1, sh_sg hq (hb.isShort bl) y0 y1]; done)
    | exact key (toNormal_raw hq r ha al).1 (toNormal_raw hq r hb bl).1
    | exact key (toNormal_raw hq r ha al).1 (hb.longPlain bl bm)
    | exact key (ha.longPlain al am) (toNormal_raw hq r hb bl).1
    | exact key (ha.longPlain al am) (hb.longPlain bl bm)
    | exact key (toNormal_raw hq r ha al).1 (toLongNormal_raw hq r hb).1
    | exact key (ha.longPlain al am) (toLongNormal_raw hq r hb).1
    | exact key (toLongNormal_raw hq r ha).1 (toNormal_raw hq r hb bl).1
    | exact key (toLongNormal_raw hq r ha).1 (hb.longPlain bl bm)

theorem req_eq : req q r a b = decide (x = y) := by
  have plain : ∀ {u v : Nat}, Plain q u x → Plain q v y → (v == u) = decide (x = y) := by
    intro u v hu hv
    rw [Bool.eq_iff_iff, beq_iff_eq, decide_eq_true_eq, eq_comm, plain_eq_iff hu hv, canon_iff x0 x1 y0 y1]
  have mont : ∀ {u v : Nat}, Plain q u (x * R q) → Plain q v (y * R q) → (v == u) = decide (x = y) := by
    intro u v hu hv
    rw [Bool.eq_iff_iff, beq_iff_eq, decide_eq_true_eq, eq_comm, plain_eq_iff hu hv, ← canon_iff x0 x1 y0 y1]
    exact ⟨cancelR hq, fun h => h.mul_right _⟩
  unfold req
  cases al : a.long <;> cases bl : b.long <;> cases am : a.mont <;> cases bm : b.mont <;>
    simp only [Bool.false_eq_true, if_true, if_false]
  all_goals first
    | (rw [← sh_sg hq (ha.isShort al) x0 x1, ← sh_sg hq (hb.isShort bl) y0 y1, Bool.eq_iff_iff, beq_iff_eq,
        decide_eq_true_eq, sg_inj x0 x1 y0 y1]; done)
    | exact mont (ha.isMont am) (hb.isMont bm)
    | exact mont (ha.isMont am) (toMontgomery_raw hq r hb)
    | exact mont (toMontgomery_raw hq r ha) (hb.isMont bm)
    | exact plain (ha.longPlain al am) (hb.longPlain bl bm)
    | exact plain (ha.longPlain al am) (toLongNormal_raw hq r hb).1
    | exact plain (toLongNormal_raw hq r ha).1 (hb.longPlain bl bm)

omit hb y0 y1 in
theorem isZero_eq : (if a.long then a.raw == 0 else a.short == 0) = decide (x = 0) := by
  have hz : Plain q 0 0 := ⟨hq.pos, Int.ModEq.refl _⟩
  cases al : a.long with
  | true =>
    simp only [if_true]
    cases am : a.mont with
    | true =>
      rw [Bool.eq_iff_iff, beq_iff_eq, decide_eq_true_eq, plain_eq_iff (ha.isMont am) hz,
        ← canon_iff x0 x1 (le_refl 0) (by exact_mod_cast hq.pos)]
      constructor
      · intro h; exact cancelR hq (by rw [zero_mul]; exact h)
      · intro h; have := h.mul_right (R q : Int); rwa [zero_mul] at this
    | false =>
      rw [Bool.eq_iff_iff, beq_iff_eq, decide_eq_true_eq, plain_eq_iff (ha.longPlain al am) hz,
        canon_iff x0 x1 (le_refl 0) (by exact_mod_cast hq.pos)]
  | false =>
    simp only [Bool.false_eq_true, if_false]
    have h := sh_sg hq (ha.isShort al) x0 x1
    have h0 : sg q 0 = 0 := by unfold sg; rw [if_pos (by positivity)]
    rw [Bool.eq_iff_iff, beq_iff_eq, decide_eq_true_eq, ← h]
    rw [← sg_inj x0 x1 (le_refl 0) (by exact_mod_cast hq.pos), h0]

omit hb y0 y1 in
theorem isTrue_eq : isTrue a = decide (x ≠ 0) := by
  have := isZero_eq hq ha x0 x1
  unfold isTrue
  rw [show decide (x ≠ 0) = !decide (x = 0) by simp, ← this]
  split <;> simp [bne]

end

theorem is_ofBool {q : Nat} (r : El) (t : Bool) : Is q (ofBool r t) (if t then 1 else 0) := by
  unfold ofBool
  exact is_short ⟨by split <;> norm_num, by split <;> norm_num, Int.ModEq.refl _⟩

end Verif.Frg
