import Verif.FrgElLemmas
import Mathlib.Data.Nat.Bitwise

/-! Lemmas on the bitwise operations, shifts and big-integer operations of `Verif.Frg`. -/

namespace Verif.Frg

set_option linter.unusedSimpArgs false
set_option linter.unusedVariables false

theorem lboMask_eq {q : Nat} (h : Good q) : lboMask q = 2 ^ (qbits q - 64 * (n64 q - 1)) - 1 := by
  have h1 := qbits_le q
  have h2 := qbits_gt q
  have h3 := h.n_ge
  unfold lboMask w
  rw [Nat.pow_div (by omega) (by decide)]
  congr 2
  omega

theorem maskTop_eq {q x : Nat} (h : Good q) : maskTop q x = x % 2 ^ qbits q := by
  have h2 := qbits_gt q
  have h1 := qbits_le q
  unfold maskTop limb
  rw [lboMask_eq h, Nat.and_two_pow_sub_one_eq_mod, show w = 2 ^ 64 from rfl,
    Nat.mod_mod_of_dvd _ (Nat.pow_dvd_pow 2 (by omega))]
  conv_rhs => rw [show qbits q = 64 * (n64 q - 1) + (qbits q - 64 * (n64 q - 1)) by omega, pow_add, Nat.mod_mul]
  simp only [Nat.mul_comm]

theorem condSub_eq {q x : Nat} (h : Good q) (hx : x < 2 ^ qbits q) : condSub q x = x % q := by
  have h1 := le_qbits h.pos.ne'
  have h2 : 2 ^ qbits q ≤ R q := Nat.pow_le_pow_right (by decide) (qbits_le q)
  unfold condSub
  split
  · rename_i hc
    rw [subN_of_le (by omega) hc, Nat.mod_eq_sub_mod hc, Nat.mod_eq_of_lt (by omega)]
  · rw [Nat.mod_eq_of_lt (by omega)]

theorem masked {q x : Nat} (h : Good q) : condSub q (maskTop q x) = x % 2 ^ qbits q % q := by
  rw [maskTop_eq h, condSub_eq h (Nat.mod_lt _ (by positivity))]

theorem rawAnd_eq {q a b : Nat} (h : Good q) (ha : a < q) (hb : b < q) : rawAnd q a b = (a &&& b) % q := by
  have := lt_qbits q
  rw [rawAnd, masked h, Nat.mod_eq_of_lt (a := a &&& b) (lt_of_le_of_lt Nat.and_le_left (by omega))]

theorem rawOr_eq {q a b : Nat} (h : Good q) (ha : a < q) (hb : b < q) : rawOr q a b = (a ||| b) % q := by
  have := lt_qbits q
  rw [rawOr, masked h, Nat.mod_eq_of_lt (a := a ||| b) (Nat.or_lt_two_pow (by omega) (by omega))]

theorem rawXor_eq {q a b : Nat} (h : Good q) (ha : a < q) (hb : b < q) : rawXor q a b = (a ^^^ b) % q := by
  have := lt_qbits q
  rw [rawXor, masked h, Nat.mod_eq_of_lt (a := a ^^^ b) (Nat.xor_lt_two_pow (by omega) (by omega))]

theorem rawNot_eq {q a : Nat} (h : Good q) (ha : a < q) : rawNot q a = (2 ^ qbits q - 1 - a) % q := by
  have h1 := lt_qbits q
  rw [rawNot, masked h]
  congr 1
  have h2 : R q = 2 ^ qbits q * 2 ^ (64 * n64 q - qbits q) := by
    unfold R; rw [← pow_add]; congr 1; have := qbits_le q; omega
  obtain ⟨k, hk⟩ : ∃ k, 2 ^ (64 * n64 q - qbits q) = k + 1 := ⟨2 ^ (64 * n64 q - qbits q) - 1, by
    have : 0 < 2 ^ (64 * n64 q - qbits q) := by positivity
    omega⟩
  rw [h2, hk, Nat.mul_add, Nat.mul_one]
  rw [show 2 ^ qbits q * k + 2 ^ qbits q - 1 - a = (2 ^ qbits q - 1 - a) + 2 ^ qbits q * k by omega,
    Nat.add_mul_mod_self_left, Nat.mod_eq_of_lt (by omega)]

theorem rawShl_eq {q a : Nat} (h : Good q) (ha : a < q) (b : Nat) : rawShl q a b = a * 2 ^ b % 2 ^ qbits q % q := by
  have h1 := lt_qbits q
  have hle := qbits_le q
  unfold rawShl
  split
  · rename_i hb
    rw [hb, pow_zero, mul_one, Nat.mod_eq_of_lt (a := a) (by omega), Nat.mod_eq_of_lt ha]
  · split
    · rename_i hb
      obtain ⟨k, rfl⟩ := Nat.exists_eq_add_of_le hb
      rw [pow_add, mul_left_comm, Nat.mul_mod_right, Nat.zero_mod]
    · rename_i hb0 hb
      unfold rawShl0
      simp only
      have hword : b / 64 < n64 q := by omega
      have e1 : a % 2 ^ (64 * (n64 q - b / 64)) * 2 ^ (64 * (b / 64)) = a * 2 ^ (64 * (b / 64)) % R q := by
        unfold R
        rw [← Nat.mul_mod_mul_right, ← pow_add]
        congr 2; omega
      have e2 : (if b % 64 ≠ 0 then a % 2 ^ (64 * (n64 q - b / 64)) * 2 ^ (64 * (b / 64)) * 2 ^ (b % 64) % R q
          else a % 2 ^ (64 * (n64 q - b / 64)) * 2 ^ (64 * (b / 64))) = a * 2 ^ b % R q := by
        rw [e1]
        have e3 : a * 2 ^ (64 * (b / 64)) * 2 ^ (b % 64) = a * 2 ^ b := by
          rw [mul_assoc, ← pow_add, Nat.div_add_mod]
        split
        · rw [Nat.mod_mul_mod, e3]
        · rename_i hz
          rw [not_not] at hz
          rw [hz, pow_zero, mul_one] at e3
          rw [e3]
      rw [e2, masked h, show R q = 2 ^ (64 * n64 q) from rfl, Nat.mod_mod_of_dvd _ (Nat.pow_dvd_pow 2 hle)]

theorem rawShr_eq {q a : Nat} (h : Good q) (ha : a < q) (b : Nat) : rawShr q a b = a / 2 ^ b := by
  have h1 := lt_qbits q
  have hle := qbits_le q
  unfold rawShr
  split
  · rename_i hb; rw [hb, pow_zero, Nat.div_one]
  · split
    · rename_i hb
      rw [Nat.div_eq_of_lt]
      exact lt_of_lt_of_le (lt_trans ha h1) (Nat.pow_le_pow_right (by decide) hb)
    · unfold rawShr0
      simp only
      have e1 : a / 2 ^ (64 * (b / 64)) % 2 ^ (64 * (n64 q - b / 64)) = a / 2 ^ (64 * (b / 64)) := by
        apply Nat.mod_eq_of_lt
        apply Nat.div_lt_of_lt_mul
        rw [← pow_add]
        refine lt_of_lt_of_le (lt_trans ha h1) (Nat.pow_le_pow_right (by decide) ?_)
        omega
      rw [e1]
      have e3 : a / 2 ^ (64 * (b / 64)) / 2 ^ (b % 64) = a / 2 ^ b := by
        rw [Nat.div_div_eq_div_mul, ← pow_add, Nat.div_add_mod]
      split
      · exact e3
      · rename_i hz
        rw [not_not] at hz
        rwa [hz, pow_zero, Nat.div_one] at e3

/-! ### Elements -/

theorem Plain.nat {q raw X : Nat} (h : Plain q raw (X : Int)) (hX : X < q) : raw = X := by
  have := h.eq (by omega) (by exact_mod_cast hX)
  exact_mod_cast this

/-- A short element that is not negative is its value. -/
theorem short_nat {q : Nat} (hq : Good q) {a : El} {X : Nat} (ha : Is q a (X : Int)) (hX : X < q) (al : a.long = false)
    (h : 0 ≤ a.short) : a.short = X ∧ X < 2 ^ 31 := by
  have hs := ha.isShort al
  have h1 := sh_sg hq hs (by omega) (by exact_mod_cast hX)
  obtain ⟨s1, s2, _⟩ := hs
  unfold sg at h1
  split at h1 <;> omega

theorem plain_mod {q : Nat} (hq : Good q) (v : Nat) : Plain q (v % q) (v : Int) :=
  ⟨Nat.mod_lt _ hq.pos, natCast_modEq (Nat.mod_modEq _ _)⟩

theorem is_bit2 {q : Nat} (hq : Good q) {raw sh : Nat → Nat → Nat}
    (hraw : ∀ u v, u < q → v < q → raw u v = sh u v % q) (hcomm : ∀ u v, sh u v = sh v u)
    (hsh : ∀ u v, u < 2 ^ 31 → v < 2 ^ 31 → sh u v < 2 ^ 31)
    (r : El) {a b : El} {X Y : Nat} (ha : Is q a X) (hb : Is q b Y) (hX : X < q) (hY : Y < q) :
    Is q (bit2 q raw sh r a b) (sh X Y : Nat) := by
  have key : ∀ {u v : Nat}, Plain q u X → Plain q v Y → Plain q (raw u v) (sh X Y : Nat) := by
    intro u v hu hv
    rw [hu.nat hX, hv.nat hY, hraw _ _ hX hY]
    exact plain_mod hq _
  have key' : ∀ {u v : Nat}, Plain q u X → Plain q v Y → Plain q (raw v u) (sh X Y : Nat) := by
    intro u v hu hv
    rw [hu.nat hX, hv.nat hY, hraw _ _ hY hX, hcomm]
    exact plain_mod hq _
  have sl : ∀ {a : El} {X : Nat}, Is q a X → X < q → a.long = false → Plain q (shortLimbs q r a) X := by
    intro a X ha hX al
    unfold shortLimbs
    split
    · exact plain_short_pos hq ha al (by assumption)
    · exact (toLongNormal_raw hq r ha).1
  unfold bit2
  cases al : a.long <;> cases bl : b.long <;> cases am : a.mont <;> cases bm : b.mont <;>
    simp only [Bool.false_eq_true, if_true, if_false]
  all_goals first
    | exact is_long (key (toNormal_raw hq r ha al).1 (toNormal_raw hq r hb bl).1)
    | exact is_long (key (toNormal_raw hq r ha al).1 (hb.longPlain bl bm))
    | exact is_long (key (ha.longPlain al am) (toNormal_raw hq r hb bl).1)
    | exact is_long (key (ha.longPlain al am) (hb.longPlain bl bm))
    | exact is_long (key' (toNormal_raw hq r ha al).1 (sl hb hY bl))
    | exact is_long (key (ha.longPlain al am) (sl hb hY bl))
    | exact is_long (key (sl ha hX al) (toNormal_raw hq r hb bl).1)
    | exact is_long (key (sl ha hX al) (hb.longPlain bl bm))
    | (unfold bit_s1s2
       split
       · rename_i hp
         obtain ⟨e1, l1⟩ := short_nat hq ha hX al hp.1
         obtain ⟨e2, l2⟩ := short_nat hq hb hY bl hp.2
         have := hsh _ _ l1 l2
         rw [e1, e2, Int.toNat_natCast, Int.toNat_natCast]
         exact is_short ⟨by omega, by omega, Int.ModEq.refl _⟩
       · exact is_long (key (toLongNormal_raw hq r ha).1 (toLongNormal_raw hq r hb).1))

theorem is_bnot {q : Nat} (hq : Good q) (r : El) {a : El} {X : Nat} (ha : Is q a X) (hX : X < q) :
    Is q (bnot q r a) (2 ^ qbits q - 1 - X : Nat) := by
  have key : ∀ {u : Nat}, Plain q u X → Plain q (rawNot q u) (2 ^ qbits q - 1 - X : Nat) := by
    intro u hu
    rw [hu.nat hX, rawNot_eq hq hX]
    exact plain_mod hq _
  unfold bnot
  cases al : a.long <;> cases am : a.mont <;> simp only [Bool.and_true, Bool.and_false, Bool.not_true, Bool.not_false,
    Bool.false_eq_true, if_true, if_false]
  all_goals first
    | exact is_long (key (ha.longPlain al am))
    | exact is_long (key (toLongNormal_raw hq r ha).1)

theorem is_setzero {q : Nat} (r : El) : Is q (setzero r) 0 :=
  is_short ⟨by norm_num, by norm_num, Int.ModEq.refl _⟩

theorem is_doShl {q : Nat} (hq : Good q) (r : El) {a : El} {X : Nat} (ha : Is q a X) (hX : X < q) (b : Nat) :
    Is q (doShl q r a b) (X * 2 ^ b % 2 ^ qbits q % q : Nat) := by
  have key : ∀ {u : Nat}, Plain q u X → Plain q (rawShl q u b) (X * 2 ^ b % 2 ^ qbits q % q : Nat) := by
    intro u hu
    rw [hu.nat hX, rawShl_eq hq hX]
    exact Plain.self (Nat.mod_lt _ hq.pos)
  unfold doShl
  cases al : a.long with
  | true =>
    simp only [if_true, doShlln]
    cases am : a.mont with
    | true => simp only [if_true]; exact is_long (key (toNormal_raw hq r ha al).1)
    | false => simp only [Bool.false_eq_true, if_false]; exact is_long (key (ha.longPlain al am))
  | false =>
    have hcl : Is q (doShlcl q r a b) (X * 2 ^ b % 2 ^ qbits q % q : Nat) := is_long (key (toLongNormal_raw hq r ha).1)
    simp only [Bool.false_eq_true, if_false]
    split
    · rename_i h0
      obtain ⟨e1, _⟩ := short_nat hq ha hX al (by omega)
      have : X = 0 := by omega
      rw [this]
      simpa using is_setzero (q := q) r
    · split
      · exact hcl
      · split
        · exact hcl
        · split
          · exact hcl
          · rename_i h1 h2 h3 h4
            obtain ⟨e1, l1⟩ := short_nat hq ha hX al (by omega)
            rw [not_not, e1] at h4
            have h5 : X * 2 ^ b / 2 ^ 31 = 0 := by exact_mod_cast h4
            have h6 : X * 2 ^ b < 2 ^ 31 := by
              rcases (Nat.div_eq_zero_iff).1 h5 with h | h
              · norm_num at h
              · exact h
            have hbig := hq.big
            have hlt := lt_qbits q
            rw [Nat.mod_eq_of_lt (a := X * 2 ^ b) (by omega), Nat.mod_eq_of_lt (a := X * 2 ^ b) (by omega), e1]
            refine is_short ⟨?_, ?_, ?_⟩
            · have : (0 : Int) ≤ (X : Int) * 2 ^ b := by positivity
              omega
            · exact_mod_cast h6
            · push_cast; exact Int.ModEq.refl _

theorem is_doShr {q : Nat} (hq : Good q) (r : El) {a : El} {X : Nat} (ha : Is q a X) (hX : X < q) (b : Nat) :
    Is q (doShr q r a b) (X / 2 ^ b : Nat) := by
  have hlt : X / 2 ^ b < q := lt_of_le_of_lt (Nat.div_le_self _ _) hX
  have key : ∀ {u : Nat}, Plain q u X → Plain q (rawShr q u b) (X / 2 ^ b : Nat) := by
    intro u hu
    rw [hu.nat hX, rawShr_eq hq hX]
    exact Plain.self hlt
  have lng : ∀ {a : El}, Is q a X → a.long = true → Is q (doShrl q r a b) (X / 2 ^ b : Nat) := by
    intro a ha al
    unfold doShrl doShrln
    cases am : a.mont with
    | true =>
      simp only [al, Bool.and_self, if_true]
      exact is_long (key (toNormal_raw hq r ha al).1)
    | false =>
      simp only [al, Bool.and_false, Bool.false_eq_true, if_false]
      exact is_long (key (ha.longPlain al am))
  unfold doShr
  cases al : a.long with
  | true => simp only [if_true]; exact lng ha al
  | false =>
    simp only [Bool.false_eq_true, if_false]
    split
    · rename_i h0
      obtain ⟨e1, _⟩ := short_nat hq ha hX al (by omega)
      have : X = 0 := by omega
      rw [this]
      simpa using is_setzero (q := q) r
    · split
      · obtain ⟨l1, l2, l3⟩ := toLongNormal_raw hq r ha
        refine lng ?_ l2
        unfold Is
        rw [if_pos l2, if_neg (by rw [l3]; decide)]
        exact l1
      · rename_i h1 h2
        obtain ⟨e1, l1⟩ := short_nat hq ha hX al (by omega)
        split
        · rename_i h3
          have : X / 2 ^ b = 0 := Nat.div_eq_of_lt (lt_of_lt_of_le l1 (Nat.pow_le_pow_right (by decide) h3))
          rw [this]
          exact is_setzero r
        · rw [e1]
          have : X / 2 ^ b ≤ X := Nat.div_le_self _ _
          refine is_short ⟨?_, ?_, ?_⟩
          · have : (0 : Int) ≤ (X : Int) / 2 ^ b := by positivity
            omega
          · have : ((X / 2 ^ b : Nat) : Int) < 2 ^ 31 := by exact_mod_cast lt_of_le_of_lt this l1
            push_cast at this; exact this
          · push_cast; exact Int.ModEq.refl _

/-- Left shift by a canonical amount. -/
def shlSpec (q X Y : Nat) : Nat :=
  if Y < qbits q then X * 2 ^ Y % 2 ^ qbits q % q else if q - Y < qbits q then X / 2 ^ (q - Y) else 0

/-- Right shift by a canonical amount. -/
def shrSpec (q X Y : Nat) : Nat :=
  if Y < qbits q then X / 2 ^ Y else if q - Y < qbits q then X * 2 ^ (q - Y) % 2 ^ qbits q % q else 0

theorem limb_small {q Y : Nat} (hq : Good q) (h : Y < qbits q) : limb 0 Y = Y := by
  rw [limb_zero, Nat.mod_eq_of_lt (lt_trans h hq.qbits_lt)]

theorem short_back {q : Nat} (hq : Good q) {b : El} {Y : Nat} (hb : Is q b (Y : Int)) (hY : Y < q) (bl : b.long = false)
    (h : b.short < 0) : (-b.short).toNat = q - Y ∧ qbits q ≤ Y := by
  have hs := hb.isShort bl
  have h1 := sh_sg hq hs (by omega) (by exact_mod_cast hY)
  have h2 := hq.two_qbits
  unfold sg at h1
  split at h1 <;> push_cast at * <;> omega

theorem is_shl {q : Nat} (hq : Good q) (r : El) {a b : El} {X Y : Nat} (ha : Is q a X) (hb : Is q b Y)
    (hX : X < q) (hY : Y < q) : Is q (shl q r a b) (shlSpec q X Y : Nat) := by
  have lng : ∀ {b : El}, Plain q b.raw Y → Is q (shlLong q r a b) (shlSpec q X Y : Nat) := by
    intro b hb
    have e := hb.nat hY
    unfold shlLong shlBig rawSubRegular shlSpec
    simp only [e, subN_of_le (lt_R q) hY.le]
    by_cases h1 : Y < qbits q
    · rw [if_neg (by omega), if_pos h1, limb_small hq h1]
      exact is_doShl hq r ha hX Y
    · rw [if_pos (by omega), if_neg h1]
      by_cases h2 : q - Y < qbits q
      · rw [if_neg (by omega), if_pos h2, limb_small hq h2]
        exact is_doShr hq r ha hX _
      · rw [if_pos (by omega), if_neg h2]
        exact is_setzero r
  unfold shl
  cases bl : b.long with
  | true =>
    simp only [if_true]
    cases bm : b.mont with
    | true => simp only [if_true]; exact lng (toNormal_raw hq r hb bl).1
    | false => simp only [Bool.false_eq_true, if_false]; exact lng (hb.longPlain bl bm)
  | false =>
    simp only [Bool.false_eq_true, if_false]
    unfold shlSpec
    split
    · rename_i hn
      obtain ⟨e1, e2⟩ := short_back hq hb hY bl hn
      rw [if_neg (show ¬ Y < qbits q by omega)]
      by_cases h2 : q - Y < qbits q
      · rw [if_neg (by omega), if_pos h2, e1]
        exact is_doShr hq r ha hX _
      · rw [if_pos (by omega), if_neg h2]
        exact is_setzero r
    · rename_i hn
      obtain ⟨e1, l1⟩ := short_nat hq hb hY bl (by omega)
      by_cases h1 : Y < qbits q
      · rw [if_neg (by omega), if_pos h1, e1, Int.toNat_natCast]
        exact is_doShl hq r ha hX Y
      · have := hq.len
        have hbig := hq.big
        have : ¬ q - Y < qbits q := by unfold qbits; omega
        rw [if_pos (by omega), if_neg h1, if_neg this]
        exact is_setzero r

theorem is_shr {q : Nat} (hq : Good q) (r : El) {a b : El} {X Y : Nat} (ha : Is q a X) (hb : Is q b Y)
    (hX : X < q) (hY : Y < q) : Is q (shr q r a b) (shrSpec q X Y : Nat) := by
  have lng : ∀ {b : El}, Plain q b.raw Y → Is q (shrLong q r a b) (shrSpec q X Y : Nat) := by
    intro b hb
    have e := hb.nat hY
    unfold shrLong shrBig rawSubRegular shrSpec
    simp only [e, subN_of_le (lt_R q) hY.le]
    by_cases h1 : Y < qbits q
    · rw [if_neg (by omega), if_pos h1, limb_small hq h1]
      exact is_doShr hq r ha hX Y
    · rw [if_pos (by omega), if_neg h1]
      by_cases h2 : q - Y < qbits q
      · rw [if_neg (by omega), if_pos h2, limb_small hq h2]
        exact is_doShl hq r ha hX _
      · rw [if_pos (by omega), if_neg h2]
        exact is_setzero r
  unfold shr
  cases bl : b.long with
  | true =>
    simp only [if_true]
    cases bm : b.mont with
    | true => simp only [if_true]; exact lng (toNormal_raw hq r hb bl).1
    | false => simp only [Bool.false_eq_true, if_false]; exact lng (hb.longPlain bl bm)
  | false =>
    simp only [Bool.false_eq_true, if_false]
    unfold shrSpec
    split
    · rename_i hn
      obtain ⟨e1, e2⟩ := short_back hq hb hY bl hn
      rw [if_neg (show ¬ Y < qbits q by omega)]
      by_cases h2 : q - Y < qbits q
      · rw [if_neg (by omega), if_pos h2, e1]
        exact is_doShl hq r ha hX _
      · rw [if_pos (by omega), if_neg h2]
        exact is_setzero r
    · rename_i hn
      obtain ⟨e1, l1⟩ := short_nat hq hb hY bl (by omega)
      by_cases h1 : Y < qbits q
      · rw [if_neg (by omega), if_pos h1, e1, Int.toNat_natCast]
        exact is_doShr hq r ha hX Y
      · have := hq.len
        have hbig := hq.big
        have : ¬ q - Y < qbits q := by unfold qbits; omega
        rw [if_pos (by omega), if_neg h1, if_neg this]
        exact is_setzero r

/-! ### Big integers -/

theorem toMpz_eq {q : Nat} (hq : Good q) (r : El) {a : El} {x : Int} (ha : Is q a x) (x0 : 0 ≤ x) (x1 : x < q) :
    toMpz q r a = x := by
  unfold toMpz
  cases al : a.long with
  | true =>
    obtain ⟨h1, h2, h3⟩ := toNormal_raw hq r ha al
    simp only [h2, if_true]
    exact h1.eq x0 x1
  | false =>
    have e : toNormal q r a = a := by unfold toNormal; simp [al]
    simp only [e, al, Bool.false_eq_true, if_false]
    have := sh_sg hq (ha.isShort al) x0 x1
    obtain ⟨s1, s2, _⟩ := ha.isShort al
    have hbig : (2 : Int) ^ 64 < q := by exact_mod_cast hq.big
    unfold sg at this
    split at this <;> split <;> push_cast at * <;> omega

theorem num_eq {q : Nat} (hq : Good q) (r : El) {a : El} {x : Int} (ha : Is q a x) (x0 : 0 ≤ x) (x1 : x < q) :
    num q r a = x := by
  unfold num
  cases al : a.long with
  | true =>
    simp only [Bool.not_true, Bool.false_eq_true, if_false]
    exact (toNormal_raw hq r ha al).1.eq x0 x1
  | false =>
    simp only [Bool.not_false, if_true]
    have := sh_sg hq (ha.isShort al) x0 x1
    obtain ⟨s1, s2, _⟩ := ha.isShort al
    have hbig : (2 : Int) ^ 64 < q := by exact_mod_cast hq.big
    unfold sg at this
    split at this <;> split <;> push_cast at * <;> omega

theorem is_fromMpz {q : Nat} (r : El) {v : Int} (h0 : 0 ≤ v) (h1 : v < q) : Is q (fromMpz r v) v := by
  unfold fromMpz
  split
  · rename_i h; exact is_short ⟨h.1, h.2, Int.ModEq.refl _⟩
  · exact is_long (plain_of (by omega) 0 (by omega))

theorem is_square {q : Nat} (hq : Good q) (r : El) {a : El} {x : Int} (ha : Is q a x) : Is q (square q r a) (x * x) := by
  unfold square
  cases al : a.long with
  | true =>
    simp only [if_true]
    cases am : a.mont with
    | true =>
      simp only [if_true]
      refine is_mont (plain_mmul hq (ha.isMont am) (ha.isMont am) ?_)
      rw [show x * (R q : Int) * (x * R q) = x * x * R q * R q by ring]
    | false =>
      simp only [Bool.false_eq_true, if_false]
      obtain ⟨m1, m2⟩ := mmul_self hq (ha.longPlain al am) (ha.longPlain al am)
      exact is_mont (plain_r3_mul hq m1 m2)
  | false =>
    simp only [Bool.false_eq_true, if_false]
    obtain ⟨s1, s2, s3⟩ := ha.isShort al
    exact is_longOf hq (by nlinarith) (by nlinarith) (s3.mul s3)

end Verif.Frg
