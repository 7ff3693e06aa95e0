import Verif.WFrBitLemmas
import Verif.FrgBitLemmas

/-! Lemmas on the elements of `Verif.WFr`. -/

namespace Verif.WFr

set_option linter.unusedSimpArgs false
set_option linter.unusedVariables false
set_option linter.unusedSectionVars false

open Verif.Frg (El w qbits n64 R limb Plain Sh Is sg is_long is_mont is_short sg_inj plain_eq_iff canon_iff shlSpec shrSpec)

/-! ## Memory -/

theorem put_same (m : Mem) (p : Nat) (e : El) : put m p e p = e := by simp [put]

theorem put_ne (m : Mem) {p c : Nat} (e : El) (h : c ≠ p) : put m p e c = m c := by simp [put, h]

theorem put_id (m : Mem) (p : Nat) : put m p (m p) = m := by
  funext c; unfold put; split
  · rename_i h; rw [h]
  · rfl

theorem put_put (m : Mem) (p : Nat) (e f : El) : put (put m p e) p f = put m p f := by
  funext c; unfold put; split <;> rfl

theorem flags_raw (m : Mem) (p : Nat) (l t : Bool) (c : Nat) : (flags m p l t c).raw = (m c).raw := by
  unfold flags put; split
  · rename_i h; rw [h]
  · rfl

theorem flags_short (m : Mem) (p : Nat) (l t : Bool) (c : Nat) : (flags m p l t c).short = (m c).short := by
  unfold flags put; split
  · rename_i h; rw [h]
  · rfl

theorem raw_flags (m : Mem) (p : Nat) (l t : Bool) (v : Nat) : setRaw (flags m p l t) p v = put m p ⟨(m p).short, l, t, v⟩ := by
  unfold setRaw flags; rw [put_put, put_same]

theorem flags_of_raw (m : Mem) (p : Nat) (l t : Bool) (v : Nat) : flags (setRaw m p v) p l t = put m p ⟨(m p).short, l, t, v⟩ := by
  unfold setRaw flags; rw [put_put, put_same]

theorem flags_of_short (m : Mem) (p : Nat) (l t : Bool) (v : Int) : flags (setShort m p v) p l t = put m p ⟨v, l, t, (m p).raw⟩ := by
  unfold setShort flags; rw [put_put, put_same]

theorem setRaw_put (m : Mem) (p : Nat) (e : El) (v : Nat) : setRaw (put m p e) p v = put m p { e with raw := v } := by
  unfold setRaw; rw [put_put, put_same]

/-- Elements keep the numbers they stand for. -/
def Conv (q : Nat) (m m' : Mem) : Prop := ∀ c t, Is q (m c) t → Is q (m' c) t

/-- The element at `r` stands for `z`; the others, but for the scratch elements, keep theirs. -/
def Res (q : Nat) (m m' : Mem) (r : Nat) (z : Int) : Prop :=
  Is q (m' r) z ∧ ∀ c, c ≠ r → c ≠ s1 → c ≠ s2 q → ∀ t, Is q (m c) t → Is q (m' c) t

theorem Conv.refl (q : Nat) (m : Mem) : Conv q m m := fun _ _ h => h

theorem Conv.trans {q : Nat} {m m' m'' : Mem} (h : Conv q m m') (h' : Conv q m' m'') : Conv q m m'' :=
  fun c t e => h' c t (h c t e)

theorem conv_put {q : Nat} {m : Mem} {p : Nat} {e : El} (h : ∀ t, Is q (m p) t → Is q e t) : Conv q m (put m p e) := by
  intro c t hc
  by_cases hp : c = p
  · subst hp; rw [put_same]; exact h t hc
  · rw [put_ne _ _ hp]; exact hc

theorem res_put {q : Nat} {m m1 : Mem} {r : Nat} {e : El} {z : Int} (hc : Conv q m m1) (h : Is q e z) : Res q m (put m1 r e) r z :=
  ⟨by rw [put_same]; exact h, fun c h1 _ _ t ht => by rw [put_ne _ _ h1]; exact hc c t ht⟩

theorem Res.conv {q : Nat} {m m1 m2 : Mem} {r : Nat} {z : Int} (hc : Conv q m m1) (h : Res q m1 m2 r z) : Res q m m2 r z :=
  ⟨h.1, fun c h1 h2 h3 t ht => h.2 c h1 h2 h3 t (hc c t ht)⟩

/-- Elements other than `p` keep their numbers. -/
def ConvOff (q : Nat) (p : Nat) (m m' : Mem) : Prop := ∀ c, c ≠ p → ∀ t, Is q (m c) t → Is q (m' c) t

theorem Conv.off {q p : Nat} {m m' : Mem} (h : Conv q m m') : ConvOff q p m m' := fun c _ t e => h c t e

/-! ## Short numbers -/

section
variable {q : Nat} (hq : Good q)
include hq

theorem big' : (2 : Int) ^ 63 < q := by exact_mod_cast hq.big

theorem plain_s2l {v x : Int} (h1 : -2 ^ 63 ≤ v) (h2 : v < 2 ^ 63) (e : v ≡ x [ZMOD q]) : Plain q (s2l q v) x := by
  have hb := hq.big
  have hb' := big' hq
  refine Plain.congr ?_ e
  unfold s2l
  split
  · have : ((v.toNat : Nat) : Int) = v := Int.toNat_of_nonneg (by omega)
    exact ⟨by omega, by rw [this]⟩
  · have h3 : (((-v).toNat : Nat) : Int) = -v := Int.toNat_of_nonneg (by omega)
    have := plain_neg hq (a := (-v).toNat) (x := -v) ⟨by omega, by rw [h3]⟩
    rwa [neg_neg] at this

theorem s2l_sh {s x : Int} (h : Sh q s x) : Plain q (s2l q s) x := plain_s2l hq (by have := h.1; omega) (by have := h.2.1; omega) h.2.2

theorem sh_sg {s x : Int} (h : Sh q s x) (h0 : 0 ≤ x) (h1 : x < q) : sg q x = s := by
  obtain ⟨s1, s2, s3⟩ := h
  have hb := big' hq
  unfold Int.ModEq at s3
  rw [Int.emod_eq_of_lt h0 h1] at s3
  unfold sg
  by_cases hn : s < 0
  · rw [show s = (s + q) + q * (-1) by ring, Int.add_mul_emod_self_left, Int.emod_eq_of_lt (by omega) (by omega)] at s3
    rw [if_neg (by omega)]; omega
  · rw [Int.emod_eq_of_lt (by omega) (by omega)] at s3
    rw [if_pos (by omega)]; omega

theorem two_qbits : 2 * qbits q + 2 ≤ q := by
  have h1 := hq.len
  have h2 := hq.big
  unfold qbits; omega

theorem qbits_small : qbits q ≤ 2 ^ 20 := by have := hq.len; unfold qbits; omega

/-! ## Conversions -/

/-- The element `Fr_toMontgomery` leaves. -/
def eMont (q : Nat) (e : El) : El :=
  if e.mont then e else if e.long then ⟨e.short, true, true, f1mToMont q e.raw⟩ else ⟨e.short, false, true, f1mToMont q (s2l q e.short)⟩

/-- The element `Fr_toNormal` leaves. -/
def eNormal (q : Nat) (e : El) : El := if e.mont ∧ e.long then ⟨e.short, true, false, f1mFromMont q e.raw⟩ else e

/-- The element made long. -/
def eLong (q : Nat) (e : El) : El := if e.long then e else ⟨e.short, true, false, s2l q e.short⟩

omit hq in
theorem toMontgomery_put (m : Mem) (p : Nat) : toMontgomery q m p = put m p (eMont q (m p)) := by
  unfold toMontgomery eMont
  cases h1 : (m p).mont with
  | true => simp only [if_true, put_id]
  | false =>
    cases h2 : (m p).long with
    | true => simp only [Bool.false_eq_true, if_false, if_true]; rw [raw_flags, flags_raw]
    | false =>
      simp only [Bool.false_eq_true, if_false]
      unfold flags setRaw
      simp only [put_put, put_same]

omit hq in
theorem toNormal_put (m : Mem) (p : Nat) : toNormal q m p = put m p (eNormal q (m p)) := by
  unfold toNormal eNormal
  cases h1 : (m p).mont with
  | false => simp [put_id]
  | true =>
    cases h2 : (m p).long with
    | false => simp [put_id]
    | true => simp only [if_true, true_and]; rw [raw_flags, flags_raw]

omit hq in
theorem toLong_put (m : Mem) (p : Nat) : toLong q m p = put m p (eLong q (m p)) := by
  unfold toLong eLong
  cases h2 : (m p).long with
  | true => simp [put_id]
  | false => simp only [Bool.false_eq_true, if_false]; rw [flags_of_raw]

omit hq in
theorem toLongNormal_put (m : Mem) (p : Nat) : toLongNormal q m p = put m p (eNormal q (eLong q (m p))) := by
  unfold toLongNormal
  cases h2 : (m p).long with
  | true =>
    simp only [if_true, eLong, h2]
    cases h1 : (m p).mont with
    | true => simp only [if_true, eNormal, h1, h2]; rw [raw_flags, flags_raw]; simp
    | false => simp [eNormal, h1, put_id]
  | false =>
    simp only [Bool.false_eq_true, if_false, eLong, h2, eNormal, false_and]
    rw [flags_of_raw]

theorem is_eMont {e : El} {x : Int} (h : Is q e x) : Is q (eMont q e) x := by
  unfold eMont
  cases h1 : e.mont with
  | true => simpa using h
  | false =>
    cases h2 : e.long with
    | true => simp only [Bool.false_eq_true, if_false, if_true]; exact is_mont (plain_toMont hq (h.longPlain h2 h1))
    | false =>
      simp only [Bool.false_eq_true, if_false]
      have := h.isShort h2
      unfold Is
      rw [if_neg (by simp)]
      exact ⟨this, fun _ => plain_toMont hq (s2l_sh hq this)⟩

theorem is_eNormal {e : El} {x : Int} (h : Is q e x) : Is q (eNormal q e) x := by
  unfold eNormal
  split
  · rename_i h1; exact is_long (plain_fromMont hq (h.isMont h1.1))
  · exact h

theorem is_eLong {e : El} {x : Int} (h : Is q e x) : Is q (eLong q e) x := by
  unfold eLong
  cases h1 : e.long with
  | true => simpa using h
  | false => simp only [Bool.false_eq_true, if_false]; exact is_long (s2l_sh hq (h.isShort h1))

theorem conv_mont (m : Mem) (p : Nat) : Conv q m (toMontgomery q m p) := by
  rw [toMontgomery_put]; exact conv_put fun t h => is_eMont hq h

theorem conv_normal (m : Mem) (p : Nat) : Conv q m (toNormal q m p) := by
  rw [toNormal_put]; exact conv_put fun t h => is_eNormal hq h

theorem conv_toLong (m : Mem) (p : Nat) : Conv q m (toLong q m p) := by
  rw [toLong_put]; exact conv_put fun t h => is_eLong hq h

theorem conv_longNormal (m : Mem) (p : Nat) : Conv q m (toLongNormal q m p) := by
  rw [toLongNormal_put]; exact conv_put fun t h => is_eNormal hq (is_eLong hq h)

omit hq

/-- Long and without Montgomery flag. -/
def LN (m : Mem) (p : Nat) : Prop := (m p).long = true ∧ (m p).mont = false

theorem eNormal_LN {e : El} (h : e.mont = false) : eNormal q e = e := by
  unfold eNormal; rw [h]; simp

theorem eLong_LN {e : El} (h : e.long = true) : eLong q e = e := by
  unfold eLong; rw [h]; simp

theorem toNormal_LN {m : Mem} {p : Nat} (h : LN m p) : toNormal q m p = m := by
  rw [toNormal_put, eNormal_LN h.2, put_id]

theorem toLong_LN {m : Mem} {p : Nat} (h : LN m p) : toLong q m p = m := by
  rw [toLong_put, eLong_LN h.1, put_id]

theorem keep_normal {m : Mem} {a : Nat} (h : LN m a) (p : Nat) : LN (toNormal q m p) a := by
  by_cases hp : a = p
  · subst hp; rw [toNormal_LN h]; exact h
  · unfold LN; rw [toNormal_put, put_ne _ _ hp]; exact h

theorem keep_toLong {m : Mem} {a : Nat} (h : LN m a) (p : Nat) : LN (toLong q m p) a := by
  by_cases hp : a = p
  · subst hp; rw [toLong_LN h]; exact h
  · unfold LN; rw [toLong_put, put_ne _ _ hp]; exact h

/-- Two elements that are not long after the first is made long. -/
theorem keep_long1 {m : Mem} {a : Nat} (h : (m a).long = true) (p : Nat) : (toLong q m p a).long = true := by
  by_cases hp : a = p
  · subst hp; rw [toLong_put, eLong_LN h, put_id]; exact h
  · rw [toLong_put, put_ne _ _ hp]; exact h

theorem toLong_long (m : Mem) (p : Nat) : (toLong q m p p).long = true := by
  rw [toLong_put, put_same]; unfold eLong; split
  · assumption
  · rfl

theorem keep_long2 {m : Mem} {a : Nat} (h : (m a).long = true) (p : Nat) : (toNormal q m p a).long = true := by
  by_cases hp : a = p
  · subst hp; rw [toNormal_put, put_same]; unfold eNormal; split
    · rfl
    · exact h
  · rw [toNormal_put, put_ne _ _ hp]; exact h

theorem normal_LN {m : Mem} {p : Nat} (h : (m p).long = true) : LN (toNormal q m p) p := by
  unfold LN; rw [toNormal_put, put_same]; unfold eNormal
  rw [h]
  by_cases hm : (m p).mont = true
  · simp [hm]
  · simp [hm, h]

/-- The four lines that prepare long operands. -/
theorem prep (q : Nat) (m : Mem) (a b : Nat) :
    LN (toNormal q (toLong q (toNormal q (toLong q m a) a) b) b) a ∧ LN (toNormal q (toLong q (toNormal q (toLong q m a) a) b) b) b :=
  ⟨keep_normal (keep_toLong (normal_LN (toLong_long m a)) b) b, normal_LN (toLong_long _ b)⟩

theorem LN.plain {m : Mem} {p : Nat} {x : Int} (h : LN m p) (hx : Is q (m p) x) : Plain q (m p).raw x := hx.longPlain h.1 h.2

include hq

theorem conv_prep (m : Mem) (a b : Nat) : Conv q m (toNormal q (toLong q (toNormal q (toLong q m a) a) b) b) :=
  (conv_toLong hq m a).trans ((conv_normal hq _ a).trans ((conv_toLong hq _ b).trans (conv_normal hq _ b)))

/-! ## Sign -/

theorem isNegative_spec (m : Mem) (p : Nat) : Conv q m (isNegative q m p).1 ∧
    (∀ x, Is q (m p) x → 0 ≤ x → x < q → (isNegative q m p).2 = decide (sg q x < 0)) ∧
    ((m p).long = false → (isNegative q m p).1 = m) ∧ (LN m p → (isNegative q m p).1 = m) := by
  have hR := hq.lt_R
  unfold isNegative
  cases h1 : (m p).long with
  | true =>
    simp only [if_true]
    refine ⟨conv_normal hq m p, fun x hx h0 hx1 => ?_, by simp, fun h => toNormal_LN h⟩
    have hp := (normal_LN h1).plain (conv_normal hq m p p x hx)
    rw [intGt_eq hq (lt_trans hp.1 hR) (by omega)]
    have e := hp.eq h0 hx1
    rw [decide_eq_decide]
    unfold sg
    split <;> omega
  | false =>
    simp only [Bool.false_eq_true, if_false]
    refine ⟨Conv.refl _ _, fun x hx h0 hx1 => ?_, fun _ => trivial, fun _ => trivial⟩
    rw [sh_sg hq (hx.isShort h1) h0 hx1]

/-! ## Storing a number -/

theorem store_spec (m : Mem) (r : Nat) {v z : Int} (h1 : -2 ^ 63 ≤ v) (h2 : v < 2 ^ 63) (e : v ≡ z [ZMOD q]) :
    ∃ el, store q m r v = put m r el ∧ Is q el z := by
  unfold store
  split
  · rename_i h
    rw [flags_of_short]
    exact ⟨_, rfl, is_short ⟨by omega, by omega, e⟩⟩
  · simp only [raw_flags]
    exact ⟨_, rfl, is_long (plain_s2l hq h1 h2 e)⟩

theorem res_store {m m1 : Mem} (hc : Conv q m m1) (r : Nat) {v z : Int} (h1 : -2 ^ 63 ≤ v) (h2 : v < 2 ^ 63) (e : v ≡ z [ZMOD q]) :
    Res q m (store q m1 r v) r z := by
  obtain ⟨el, e1, e2⟩ := store_spec hq m1 r h1 h2 e
  rw [e1]; exact res_put hc e2

theorem neg_spec (m : Mem) (r a : Nat) {x : Int} (h : Is q (m a) x) : ∃ el, neg q m r a = put m r el ∧ Is q el (-x) := by
  unfold neg
  cases h1 : (m a).long with
  | true =>
    simp only [if_true]
    cases h2 : (m a).mont with
    | true =>
      simp only [if_true]
      refine ⟨_, by rw [raw_flags, flags_raw], is_mont ?_⟩
      rw [neg_mul]; exact plain_neg hq (h.isMont h2)
    | false =>
      simp only [Bool.false_eq_true, if_false]
      exact ⟨_, by rw [raw_flags, flags_raw], is_long (plain_neg hq (h.longPlain h1 h2))⟩
  | false =>
    simp only [Bool.false_eq_true, if_false]
    have hs := h.isShort h1
    exact store_spec hq m r (by have := hs.2.1; omega) (by have := hs.1; omega) hs.2.2.neg

theorem res_neg (m : Mem) (r a : Nat) {x : Int} (h : Is q (m a) x) : Res q m (neg q m r a) r (-x) := by
  obtain ⟨el, e1, e2⟩ := neg_spec hq m r a h
  rw [e1]; exact res_put (Conv.refl _ _) e2

/-- The low 32 bits of a number, signed. -/
theorem getLsb32_spec (m : Mem) (a : Nat) {x : Int} (h : Is q (m a) x) (h0 : 0 ≤ x) (h1 : x < q) (hs : 0 ≤ sg q x) :
    Conv q m (getLsb32 q m a).1 ∧ ((getLsb32 q m a).2 : Int) = x % 2 ^ 32 := by
  unfold getLsb32
  cases hl : (m a).long with
  | true =>
    simp only [if_true]
    refine ⟨conv_normal hq m a, ?_⟩
    have hp := (normal_LN hl).plain (conv_normal hq m a a x h)
    rw [← hp.eq h0 h1]; push_cast; rfl
  | false =>
    simp only [Bool.false_eq_true, if_false]
    refine ⟨Conv.refl _ _, ?_⟩
    have e := sh_sg hq (h.isShort hl) h0 h1
    have : sg q x = x := by unfold sg at hs ⊢; split <;> split at hs <;> omega
    rw [Int.toNat_of_nonneg (by omega), ← e, this]

theorem toInt_spec (m : Mem) (a : Nat) {x : Int} (h : Is q (m a) x) (h0 : 0 ≤ x) (h1 : x < q) (ha : a ≠ s1) :
    ConvOff q s1 m (toInt q m a).1 ∧ ((toInt q m a).2 : Int) = sg q x % 2 ^ 32 ∧ (0 ≤ sg q x → Conv q m (toInt q m a).1) := by
  obtain ⟨n1, n2, n3, n4⟩ := isNegative_spec hq m a
  have e := n2 x h h0 h1
  unfold toInt
  simp only
  have hx := n1 a x h
  have hq' := big' hq
  by_cases hn : sg q x < 0
  · rw [if_pos (by rw [e]; simpa using hn)]
    obtain ⟨el, p1, p2⟩ := neg_spec hq (isNegative q m a).1 s1 a hx
    have hxq : sg q x = x - q := by unfold sg at hn ⊢; split <;> split at hn <;> omega
    have hmid : (q / 2 : Nat) < x := by unfold sg at hn; split at hn <;> omega
    have hodd := hq.odd
    have p3 : Is q (neg q (isNegative q m a).1 s1 a s1) (q - x) := by
      rw [p1, put_same]; exact p2.congr (by simp [Int.ModEq, sub_eq_add_neg])
    have hs' : sg q ((q : Int) - x) = q - x := by unfold sg; rw [if_pos (by omega)]
    obtain ⟨g1, g2⟩ := getLsb32_spec hq _ s1 p3 (by omega) (by omega) (by omega)
    refine ⟨?_, ?_, fun h => absurd h (by omega)⟩
    · intro c hc t ht
      apply g1
      rw [p1, put_ne _ _ hc]
      exact n1 c t ht
    · have hlt : (getLsb32 q (neg q (isNegative q m a).1 s1 a) s1).2 < 2 ^ 32 := by
        have := Int.emod_lt_of_pos ((q : Int) - x) (show (0 : Int) < 2 ^ 32 by norm_num)
        omega
      rw [hxq]
      omega
  · rw [if_neg (by rw [e]; simpa using hn)]
    obtain ⟨g1, g2⟩ := getLsb32_spec hq _ a hx h0 h1 (by omega)
    refine ⟨(n1.trans g1).off, ?_, fun _ => n1.trans g1⟩
    rw [g2]
    have : sg q x = x := by unfold sg at hn ⊢; split <;> split at hn <;> omega
    rw [this]

theorem isTrue_spec (m : Mem) (p : Nat) {x : Int} (h : Is q (m p) x) (h0 : 0 ≤ x) (h1 : x < q) : isTrue q m p = decide (x ≠ 0) := by
  have hR := hq.lt_R
  have hp := hq.pos
  unfold isTrue
  cases hl : (m p).long with
  | true =>
    simp only [if_true]
    have hP := h.long hl
    rw [intIsZero_eq hq (lt_trans hP.1 hR), ← decide_not, decide_eq_decide]
    have := plain_eq_iff hP (Plain.self hp)
    rw [not_congr this]
    apply not_congr
    rw [show ((0 : Nat) : Int) = 0 by rfl]
    cases hm : (m p).mont with
    | false =>
      simp only [Bool.false_eq_true, if_false]
      rw [canon_iff h0 h1 (by omega) (by omega)]
    | true =>
      simp only [if_true]
      rw [← canon_iff h0 h1 (show (0 : Int) ≤ 0 by omega) (by omega)]
      constructor
      · intro e; exact cancelR hq (by rwa [zero_mul])
      · intro e; have := e.mul_right (R q : Int); rwa [zero_mul] at this
  | false =>
    simp only [Bool.false_eq_true, if_false]
    have e := sh_sg hq (h.isShort hl) h0 h1
    have h00 : sg q 0 = 0 := by unfold sg; rw [if_pos (by omega)]
    rw [← e, bne, beq_eq_decide, ← decide_not, decide_eq_decide]
    apply not_congr
    rw [← sg_inj h0 h1 (show (0 : Int) ≤ 0 by omega) (by omega), h00]

end

end Verif.WFr
