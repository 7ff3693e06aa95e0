import Verif.WFrElLemmas

/-! Lemmas on the operations of `Verif.WFr`. -/

namespace Verif.WFr

set_option linter.unusedSimpArgs false
set_option linter.unusedVariables false
set_option linter.unusedSectionVars false

open Verif.Frg (El w qbits n64 R limb Plain Sh Is sg is_long is_mont is_short sg_inj plain_eq_iff canon_iff shlSpec shrSpec)

section
variable {q : Nat} (hq : Good q)
include hq

omit hq in
theorem mont_mont (m : Mem) (p : Nat) : (toMontgomery q m p p).mont = true := by
  rw [toMontgomery_put, put_same]; unfold eMont
  split
  · assumption
  · split <;> rfl

omit hq in
theorem keep_mont {m : Mem} {a : Nat} (h : (m a).mont = true) (p : Nat) : (toMontgomery q m p a).mont = true := by
  by_cases hp : a = p
  · subst hp; exact mont_mont m a
  · rw [toMontgomery_put, put_ne _ _ hp]; exact h

omit hq in
theorem mont_other {m : Mem} {a p : Nat} (h : a ≠ p) : toMontgomery q m p a = m a := by
  rw [toMontgomery_put, put_ne _ _ h]

/-! ## Sum and difference -/

theorem res_linear {f : Nat → Nat → Nat} {g : Int → Int → Int}
    (hf : ∀ {u v : Nat} {x y : Int}, Plain q u x → Plain q v y → Plain q (f u v) (g x y))
    (hR : ∀ x y : Int, g (x * R q) (y * R q) = g x y * R q)
    (hc : ∀ {s x t y : Int}, s ≡ x [ZMOD q] → t ≡ y [ZMOD q] → g s t ≡ g x y [ZMOD q])
    (hb : ∀ s t : Int, -2 ^ 31 ≤ s → s < 2 ^ 31 → -2 ^ 31 ≤ t → t < 2 ^ 31 → -2 ^ 63 ≤ g s t ∧ g s t < 2 ^ 63)
    (m : Mem) {r a b : Nat} (hr : r ≠ s1) (ha : a ≠ s1) (hbs : b ≠ s1) {x y : Int} (hx : Is q (m a) x) (hy : Is q (m b) y) :
    Res q m (linear q f g m r a b) r (g x y) := by
  have mm : ∀ {m1 : Mem}, Conv q m m1 → (m1 a).mont = true → (m1 b).mont = true →
      Res q m (setRaw (flags m1 r true true) r (f (flags m1 r true true a).raw (flags m1 r true true b).raw)) r (g x y) := by
    intro m1 h1 h2 h3
    rw [raw_flags, flags_raw, flags_raw]
    refine res_put h1 (is_mont ?_)
    rw [← hR]
    exact hf ((h1 a x hx).isMont h2) ((h1 b y hy).isMont h3)
  unfold linear
  cases al : (m a).long with
  | true =>
    cases bl : (m b).long with
    | true =>
      cases am : (m a).mont with
      | true =>
        cases bm : (m b).mont with
        | true =>
          simp only [if_true]
          exact mm (Conv.refl _ _) am bm
        | false =>
          simp only [if_true, Bool.false_eq_true, if_false]
          exact mm (conv_mont hq m b) (keep_mont am b) (mont_mont m b)
      | false =>
        cases bm : (m b).mont with
        | true =>
          simp only [if_true, Bool.false_eq_true, if_false]
          exact mm (conv_mont hq m a) (mont_mont m a) (keep_mont bm a)
        | false =>
          simp only [if_true, Bool.false_eq_true, if_false]
          rw [raw_flags, flags_raw, flags_raw]
          exact res_put (Conv.refl _ _) (is_long (hf (hx.longPlain al am) (hy.longPlain bl bm)))
    | false =>
      cases am : (m a).mont with
      | true =>
        simp only [if_true, Bool.false_eq_true, if_false]
        exact mm (conv_mont hq m b) (keep_mont am b) (mont_mont m b)
      | false =>
        simp only [if_true, Bool.false_eq_true, if_false]
        have e1 : (setRaw (flags m r true false) s1 (s2l q (flags m r true false b).short) a).raw = (m a).raw := by
          unfold setRaw; rw [put_ne _ _ ha, flags_raw]
        have e2 : (setRaw (flags m r true false) s1 (s2l q (flags m r true false b).short) s1).raw = s2l q (m b).short := by
          unfold setRaw; rw [put_same]; simp only [flags_short]
        have hp : Plain q (f (m a).raw (s2l q (m b).short)) (g x y) := hf (hx.longPlain al am) (s2l_sh hq (hy.isShort bl))
        rw [e1, e2]
        generalize s2l q (flags m r true false b).short = k
        generalize f (m a).raw (s2l q (m b).short) = v at hp ⊢
        refine ⟨?_, fun c c1 c2 _ t ht => ?_⟩
        · unfold setRaw
          rw [put_same, put_ne _ _ hr]
          unfold flags
          rw [put_same]
          exact is_long hp
        · unfold setRaw flags
          rw [put_ne _ _ c1, put_ne _ _ c2, put_ne _ _ c1]; exact ht
  | false =>
    cases bl : (m b).long with
    | true =>
      cases bm : (m b).mont with
      | true =>
        simp only [if_true, Bool.false_eq_true, if_false]
        exact mm (conv_mont hq m a) (mont_mont m a) (keep_mont bm a)
      | false =>
        simp only [if_true, Bool.false_eq_true, if_false]
        have e1 : (setRaw (flags m r true false) s1 (s2l q (flags m r true false a).short) b).raw = (m b).raw := by
          unfold setRaw; rw [put_ne _ _ hbs, flags_raw]
        have e2 : (setRaw (flags m r true false) s1 (s2l q (flags m r true false a).short) s1).raw = s2l q (m a).short := by
          unfold setRaw; rw [put_same]; simp only [flags_short]
        have hp : Plain q (f (s2l q (m a).short) (m b).raw) (g x y) := hf (s2l_sh hq (hx.isShort al)) (hy.longPlain bl bm)
        rw [e1, e2]
        generalize s2l q (flags m r true false a).short = k
        generalize f (s2l q (m a).short) (m b).raw = v at hp ⊢
        refine ⟨?_, fun c c1 c2 _ t ht => ?_⟩
        · unfold setRaw
          rw [put_same, put_ne _ _ hr]
          unfold flags
          rw [put_same]
          exact is_long hp
        · unfold setRaw flags
          rw [put_ne _ _ c1, put_ne _ _ c2, put_ne _ _ c1]; exact ht
    | false =>
      simp only [Bool.false_eq_true, if_false]
      have sx := hx.isShort al
      have sy := hy.isShort bl
      obtain ⟨b1, b2⟩ := hb _ _ sx.1 sx.2.1 sy.1 sy.2.1
      exact res_store hq (Conv.refl _ _) r b1 b2 (hc sx.2.2 sy.2.2)

theorem res_add (m : Mem) {r a b : Nat} (hr : r ≠ s1) (ha : a ≠ s1) (hbs : b ≠ s1) {x y : Int} (hx : Is q (m a) x) (hy : Is q (m b) y) :
    Res q m (add q m r a b) r (x + y) :=
  res_linear hq (g := (· + ·)) (fun h1 h2 => plain_add hq h1 h2) (fun x y => by ring) (fun h1 h2 => h1.add h2)
    (fun s t _ _ _ _ => by constructor <;> (show _; omega)) m hr ha hbs hx hy

theorem res_sub (m : Mem) {r a b : Nat} (hr : r ≠ s1) (ha : a ≠ s1) (hbs : b ≠ s1) {x y : Int} (hx : Is q (m a) x) (hy : Is q (m b) y) :
    Res q m (sub q m r a b) r (x - y) :=
  res_linear hq (g := (· - ·)) (fun h1 h2 => plain_sub hq h1 h2) (fun x y => by ring) (fun h1 h2 => h1.sub h2)
    (fun s t _ _ _ _ => by constructor <;> (show _; omega)) m hr ha hbs hx hy

/-! ## Product -/

omit hq in
theorem mul_small {s t : Int} (h1 : -2 ^ 31 ≤ s) (h2 : s < 2 ^ 31) (h3 : -2 ^ 31 ≤ t) (h4 : t < 2 ^ 31) :
    -2 ^ 63 ≤ s * t ∧ s * t < 2 ^ 63 := by
  constructor <;> nlinarith

theorem res_mul (m : Mem) (r a b : Nat) {x y : Int} (hx : Is q (m a) x) (hy : Is q (m b) y) : Res q m (mul q m r a b) r (x * y) := by
  have mm : ∀ {m1 : Mem}, Conv q m m1 → (m1 a).mont = true → (m1 b).mont = true →
      Res q m (setRaw (flags m1 r true true) r (f1mMul q (flags m1 r true true a).raw (flags m1 r true true b).raw)) r (x * y) := by
    intro m1 h1 h2 h3
    rw [raw_flags, flags_raw, flags_raw]
    exact res_put h1 (is_mont (plain_mul hq ((h1 a x hx).isMont h2) ((h1 b y hy).isMont h3) (by ring_nf; rfl)))
  have nm : ∀ {m1 : Mem}, Conv q m m1 → LN m1 a → (m1 b).mont = true →
      Res q m (setRaw (flags m1 r true false) r (f1mMul q (flags m1 r true false a).raw (flags m1 r true false b).raw)) r (x * y) := by
    intro m1 h1 h2 h3
    rw [raw_flags, flags_raw, flags_raw]
    exact res_put h1 (is_long (plain_mul hq (h2.plain (h1 a x hx)) ((h1 b y hy).isMont h3) (by ring_nf; rfl)))
  have mn : ∀ {m1 : Mem}, Conv q m m1 → (m1 a).mont = true → LN m1 b →
      Res q m (setRaw (flags m1 r true false) r (f1mMul q (flags m1 r true false a).raw (flags m1 r true false b).raw)) r (x * y) := by
    intro m1 h1 h2 h3
    rw [raw_flags, flags_raw, flags_raw]
    exact res_put h1 (is_long (plain_mul hq ((h1 a x hx).isMont h2) (h3.plain (h1 b y hy)) (by ring_nf; rfl)))
  have ne : (m a).long ≠ (m b).long → a ≠ b := fun h e => h (by rw [e])
  unfold mul
  cases al : (m a).long with
  | true =>
    cases bl : (m b).long with
    | true =>
      cases am : (m a).mont with
      | true =>
        cases bm : (m b).mont with
        | true => simp only [if_true]; exact mm (Conv.refl _ _) am bm
        | false => simp only [if_true, Bool.false_eq_true, if_false]; exact mn (Conv.refl _ _) am ⟨bl, bm⟩
      | false =>
        cases bm : (m b).mont with
        | true => simp only [if_true, Bool.false_eq_true, if_false]; exact nm (Conv.refl _ _) ⟨al, am⟩ bm
        | false =>
          simp only [if_true, Bool.false_eq_true, if_false]
          rw [raw_flags, setRaw_put, flags_raw, flags_raw, put_same]
          simp only
          have h1 := (plain_mul hq (hx.longPlain al am) (hy.longPlain bl bm)
            (z := ((f1mMul q (m a).raw (m b).raw : Nat) : Int)) ?_)
          · refine res_put (Conv.refl _ _) (is_mont (plain_mul hq (plain_r3 hq) h1 ?_))
            have hxy : x * y ≡ ((f1mMul q (m a).raw (m b).raw : Nat) : Int) * R q [ZMOD q] := by
              have hR := hq.lt_R
              obtain ⟨k1, k2⟩ := f1mMul_spec hq (lt_trans (hx.longPlain al am).1 hR) (lt_trans (hy.longPlain bl bm).1 hR)
                (Nat.mul_lt_mul'' (hx.longPlain al am).1 (lt_trans (hy.longPlain bl bm).1 hR))
              have := Frg.natCast_modEq k2
              push_cast at this
              exact ((hx.longPlain al am).2.symm.mul (hy.longPlain bl bm).2.symm).trans this.symm
            have := hxy.symm.mul_right ((R q : Int) * R q)
            convert this using 1 <;> ring
          · have hR := hq.lt_R
            obtain ⟨k1, k2⟩ := f1mMul_spec hq (lt_trans (hx.longPlain al am).1 hR) (lt_trans (hy.longPlain bl bm).1 hR)
              (Nat.mul_lt_mul'' (hx.longPlain al am).1 (lt_trans (hy.longPlain bl bm).1 hR))
            have := Frg.natCast_modEq k2
            push_cast at this
            exact ((hx.longPlain al am).2.symm.mul (hy.longPlain bl bm).2.symm).trans this.symm
    | false =>
      have hne : a ≠ b := ne (by rw [al, bl]; decide)
      cases am : (m a).mont with
      | true => simp only [if_true, Bool.false_eq_true, if_false]; exact mm (conv_mont hq m b) (keep_mont am b) (mont_mont m b)
      | false =>
        simp only [if_true, Bool.false_eq_true, if_false]
        exact nm (conv_mont hq m b) (by unfold LN; rw [mont_other hne]; exact ⟨al, am⟩) (mont_mont m b)
  | false =>
    cases bl : (m b).long with
    | true =>
      have hne : b ≠ a := (ne (by rw [al, bl]; decide)).symm
      cases bm : (m b).mont with
      | true => simp only [if_true, Bool.false_eq_true, if_false]; exact mm (conv_mont hq m a) (mont_mont m a) (keep_mont bm a)
      | false =>
        simp only [if_true, Bool.false_eq_true, if_false]
        exact mn (conv_mont hq m a) (mont_mont m a) (by unfold LN; rw [mont_other hne]; exact ⟨bl, bm⟩)
    | false =>
      simp only [Bool.false_eq_true, if_false]
      have sx := hx.isShort al
      have sy := hy.isShort bl
      obtain ⟨b1, b2⟩ := mul_small sx.1 sx.2.1 sy.1 sy.2.1
      exact res_store hq (Conv.refl _ _) r b1 b2 (sx.2.2.mul sy.2.2)

/-! ## Comparisons -/

theorem eqLong_spec (m : Mem) (a b : Nat) (al : (m a).long = true) (bl : (m b).long = true) :
    Conv q m (eqLong q m a b).1 ∧ ∀ x y, Is q (m a) x → Is q (m b) y → 0 ≤ x → x < q → 0 ≤ y → y < q →
      (eqLong q m a b).2 = decide (x = y) := by
  have hR := hq.lt_R
  have pl : ∀ {u v : Nat} {x y : Int}, Plain q u x → Plain q v y → 0 ≤ x → x < q → 0 ≤ y → y < q → intEq q u v = decide (x = y) := by
    intro u v x y hu hv x0 x1 y0 y1
    rw [intEq_eq hq (lt_trans hu.1 hR) (lt_trans hv.1 hR), decide_eq_decide, plain_eq_iff hu hv, canon_iff x0 x1 y0 y1]
  unfold eqLong
  cases am : (m a).mont with
  | true =>
    cases bm : (m b).mont with
    | true =>
      simp only [if_true]
      refine ⟨Conv.refl _ _, fun x y hx hy x0 x1 y0 y1 => ?_⟩
      have hu := hx.isMont am
      have hv := hy.isMont bm
      rw [intEq_eq hq (lt_trans hu.1 hR) (lt_trans hv.1 hR), decide_eq_decide, plain_eq_iff hu hv, ← canon_iff x0 x1 y0 y1]
      exact ⟨cancelR hq, fun e => e.mul_right _⟩
    | false =>
      simp only [if_true, Bool.false_eq_true, if_false]
      refine ⟨conv_normal hq m a, fun x y hx hy => pl ?_ ?_⟩
      · exact (normal_LN al).plain (conv_normal hq m a a x hx)
      · exact (keep_normal ⟨bl, bm⟩ a).plain (conv_normal hq m a b y hy)
  | false =>
    cases bm : (m b).mont with
    | true =>
      simp only [if_true, Bool.false_eq_true, if_false]
      refine ⟨conv_normal hq m b, fun x y hx hy => pl ?_ ?_⟩
      · exact (keep_normal ⟨al, am⟩ b).plain (conv_normal hq m b a x hx)
      · exact (normal_LN bl).plain (conv_normal hq m b b y hy)
    | false =>
      simp only [Bool.false_eq_true, if_false]
      exact ⟨Conv.refl _ _, fun x y hx hy => pl (hx.longPlain al am) (hy.longPlain bl bm)⟩

theorem eqR_spec (m : Mem) (a b : Nat) :
    Conv q m (eqR q m a b).1 ∧ ∀ x y, Is q (m a) x → Is q (m b) y → 0 ≤ x → x < q → 0 ≤ y → y < q → (eqR q m a b).2 = decide (x = y) := by
  unfold eqR
  cases al : (m a).long with
  | true =>
    simp only [if_true]
    obtain ⟨h1, h2⟩ := eqLong_spec hq (toLong q m b) a b (keep_long1 al b) (toLong_long m b)
    exact ⟨(conv_toLong hq m b).trans h1, fun x y hx hy => h2 x y (conv_toLong hq m b a x hx) (conv_toLong hq m b b y hy)⟩
  | false =>
    cases bl : (m b).long with
    | true =>
      simp only [if_true, Bool.false_eq_true, if_false]
      obtain ⟨h1, h2⟩ := eqLong_spec hq (toLong q m a) a b (toLong_long m a) (keep_long1 bl a)
      exact ⟨(conv_toLong hq m a).trans h1, fun x y hx hy => h2 x y (conv_toLong hq m a a x hx) (conv_toLong hq m a b y hy)⟩
    | false =>
      simp only [Bool.false_eq_true, if_false]
      refine ⟨Conv.refl _ _, fun x y hx hy x0 x1 y0 y1 => ?_⟩
      rw [← sh_sg hq (hx.isShort al) x0 x1, ← sh_sg hq (hy.isShort bl) y0 y1, beq_eq_decide, decide_eq_decide, sg_inj x0 x1 y0 y1]

theorem gtLong_spec (m : Mem) (a b : Nat) (al : (m a).long = true) (bl : (m b).long = true) :
    Conv q m (gtLong q m a b).1 ∧ ∀ x y, Is q (m a) x → Is q (m b) y → 0 ≤ x → x < q → 0 ≤ y → y < q →
      (gtLong q m a b).2 = decide (sg q y < sg q x) := by
  have hR := hq.lt_R
  have hc := (conv_normal hq m a).trans (conv_normal hq (toNormal q m a) b)
  have la : LN (toNormal q (toNormal q m a) b) a := keep_normal (normal_LN al) b
  have lb : LN (toNormal q (toNormal q m a) b) b := normal_LN (keep_long2 bl a)
  unfold gtLong
  simp only
  generalize toNormal q (toNormal q m a) b = m1 at *
  obtain ⟨_, a2, _, a4⟩ := isNegative_spec hq m1 a
  obtain ⟨_, b2, _, b4⟩ := isNegative_spec hq m1 b
  rw [a4 la, b4 lb]
  refine ⟨?_, ?_⟩
  · split <;> split <;> exact hc
  · intro x y hx hy x0 x1 y0 y1
    have hx' := hc a x hx
    have hy' := hc b y hy
    rw [a2 x hx' x0 x1, b2 y hy' y0 y1]
    have px := la.plain hx'
    have py := lb.plain hy'
    have ex := px.eq x0 x1
    have ey := py.eq y0 y1
    have hG := intGt_eq hq (lt_trans px.1 hR) (lt_trans py.1 hR)
    rw [hG]
    by_cases h1 : sg q x < 0 <;> by_cases h2 : sg q y < 0 <;>
      simp only [h1, h2, decide_true, decide_false, if_true, Bool.false_eq_true, if_false] <;>
      (rw [eq_comm]; simp only [decide_eq_decide, decide_eq_true_eq, decide_eq_false_iff_not]; unfold sg at *; split at h1 <;> split at h2 <;> simp only [*, if_true, if_false] <;> omega)

theorem gtR_spec (m : Mem) (a b : Nat) :
    Conv q m (gtR q m a b).1 ∧ ∀ x y, Is q (m a) x → Is q (m b) y → 0 ≤ x → x < q → 0 ≤ y → y < q →
      (gtR q m a b).2 = decide (sg q y < sg q x) := by
  unfold gtR
  cases al : (m a).long with
  | true =>
    simp only [if_true]
    obtain ⟨h1, h2⟩ := gtLong_spec hq (toLong q m b) a b (keep_long1 al b) (toLong_long m b)
    exact ⟨(conv_toLong hq m b).trans h1, fun x y hx hy => h2 x y (conv_toLong hq m b a x hx) (conv_toLong hq m b b y hy)⟩
  | false =>
    cases bl : (m b).long with
    | true =>
      simp only [if_true, Bool.false_eq_true, if_false]
      obtain ⟨h1, h2⟩ := gtLong_spec hq (toLong q m a) a b (toLong_long m a) (keep_long1 bl a)
      exact ⟨(conv_toLong hq m a).trans h1, fun x y hx hy => h2 x y (conv_toLong hq m a a x hx) (conv_toLong hq m a b y hy)⟩
    | false =>
      simp only [Bool.false_eq_true, if_false]
      refine ⟨Conv.refl _ _, fun x y hx hy x0 x1 y0 y1 => ?_⟩
      rw [sh_sg hq (hx.isShort al) x0 x1, sh_sg hq (hy.isShort bl) y0 y1]

omit hq in
theorem setBool_put (m : Mem) (r : Nat) (t : Bool) : setBool m r t = put m r ⟨if t then 1 else 0, false, false, (m r).raw⟩ := by
  unfold setBool setWord; cases t <;> rfl

omit hq in
theorem is_bool (t : Bool) (k : Nat) : Is q ⟨if t then 1 else 0, false, false, k⟩ (if t then 1 else 0) :=
  is_short ⟨by cases t <;> simp, by cases t <;> simp, Int.ModEq.refl _⟩

omit hq in
theorem res_bool {m m1 : Mem} (hc : Conv q m m1) (r : Nat) (t : Bool) : Res q m (setBool m1 r t) r (if t then 1 else 0) := by
  rw [setBool_put]; exact res_put hc (is_bool t _)

/-- The six comparisons, with the memory that is left. -/
theorem cmp_spec (m : Mem) (r a b : Nat) {x y : Int} (hx : Is q (m a) x) (hy : Is q (m b) y) (x0 : 0 ≤ x) (x1 : x < q) (y0 : 0 ≤ y) (y1 : y < q) :
    (∃ m1, Conv q m m1 ∧ eq q m r a b = setBool m1 r (decide (x = y))) ∧
    (∃ m1, Conv q m m1 ∧ neq q m r a b = setBool m1 r (decide (x ≠ y))) ∧
    (∃ m1, Conv q m m1 ∧ lt q m r a b = setBool m1 r (decide (sg q x < sg q y))) ∧
    (∃ m1, Conv q m m1 ∧ leq q m r a b = setBool m1 r (decide (sg q x ≤ sg q y))) ∧
    (∃ m1, Conv q m m1 ∧ gt q m r a b = setBool m1 r (decide (sg q y < sg q x))) ∧
    (∃ m1, Conv q m m1 ∧ geq q m r a b = setBool m1 r (decide (sg q y ≤ sg q x))) := by
  obtain ⟨e1, e2⟩ := eqR_spec hq m a b
  have e3 := e2 x y hx hy x0 x1 y0 y1
  obtain ⟨g1, g2⟩ := gtR_spec hq (eqR q m a b).1 a b
  have g3 := g2 x y (e1 a x hx) (e1 b y hy) x0 x1 y0 y1
  have inj := sg_inj x0 x1 y0 y1
  refine ⟨⟨_, e1, by unfold eq; simp only [e3]⟩, ⟨_, e1, by unfold neq; simp only [e3, decide_not, ne_eq]⟩, ?_, ?_, ?_, ?_⟩
  · unfold lt; dsimp only; rw [e3]
    by_cases h : x = y
    · exact ⟨_, e1, by simp only [h, decide_true, if_true, lt_irrefl, decide_false]; rfl⟩
    · refine ⟨_, e1.trans g1, ?_⟩
      simp only [h, decide_false, Bool.false_eq_true, if_false, g3, ← decide_not]
      congr 1; rw [decide_eq_decide]; have := mt inj.1 h; omega
  · unfold leq; dsimp only; rw [e3]
    by_cases h : x = y
    · exact ⟨_, e1, by simp only [h, decide_true, if_true, le_refl]; rfl⟩
    · refine ⟨_, e1.trans g1, ?_⟩
      simp only [h, decide_false, Bool.false_eq_true, if_false, g3, ← decide_not]
      congr 1; rw [decide_eq_decide]; omega
  · unfold gt; dsimp only; rw [e3]
    by_cases h : x = y
    · exact ⟨_, e1, by simp only [h, decide_true, if_true, lt_irrefl, decide_false]; rfl⟩
    · refine ⟨_, e1.trans g1, ?_⟩
      simp only [h, decide_false, Bool.false_eq_true, if_false, g3]
  · unfold geq; dsimp only; rw [e3]
    by_cases h : x = y
    · exact ⟨_, e1, by simp only [h, decide_true, if_true, le_refl]; rfl⟩
    · refine ⟨_, e1.trans g1, ?_⟩
      simp only [h, decide_false, Bool.false_eq_true, if_false, g3]
      congr 1; rw [decide_eq_decide]; have := mt inj.1 h; omega

/-! ## Quotient, rest, inverse, power -/

theorem res_idiv (m : Mem) {r a b : Nat} (hr : r ≠ s1) {X Y : Nat} (hx : Is q (m a) X) (hy : Is q (m b) Y) (hX : X < q) (hY : Y < q) :
    (Y = 0 → idiv q m r a b = none ∧ mod q m r a b = none) ∧
    (0 < Y → (∃ m', idiv q m r a b = some m' ∧ Res q m m' r (X / Y : Nat)) ∧ (∃ m', mod q m r a b = some m' ∧ Res q m m' r (X % Y : Nat))) := by
  have hR := hq.lt_R
  have hc := conv_prep hq m a b
  obtain ⟨la, lb⟩ := prep q m a b
  unfold idiv mod
  simp only
  generalize toNormal q (toLong q (toNormal q (toLong q m a) a) b) b = m1 at *
  have ea : (m1 a).raw = X := (la.plain (hc a _ hx)).nat hX
  have eb : (m1 b).raw = Y := (lb.plain (hc b _ hy)).nat hY
  rw [flags_raw, flags_raw, ea, eb]
  refine ⟨?_, ?_⟩
  · rintro rfl
    rw [intDiv_zero hq]; exact ⟨rfl, rfl⟩
  · intro hY0
    rw [intDiv_eq hq (by omega) (by omega) hY0]
    simp only
    have hd : X / Y < q := lt_of_le_of_lt (Nat.div_le_self _ _) hX
    have hm : X % Y < q := lt_of_le_of_lt (Nat.mod_le _ _) hX
    refine ⟨⟨_, rfl, ?_, fun c c1 c2 _ t ht => ?_⟩, ⟨_, rfl, ?_, fun c c1 c2 _ t ht => ?_⟩⟩
    · unfold setRaw
      rw [put_ne _ _ hr, put_same]
      unfold flags
      rw [put_same]
      exact is_long (Plain.self hd)
    · unfold setRaw flags
      rw [put_ne _ _ c2, put_ne _ _ c1, put_ne _ _ c1]; exact hc c t ht
    · unfold setRaw
      rw [put_same, put_ne _ _ hr]
      unfold flags
      rw [put_same]
      exact is_long (Plain.self hm)
    · unfold setRaw flags
      rw [put_ne _ _ c1, put_ne _ _ c2, put_ne _ _ c1]; exact hc c t ht

omit hq in
theorem inv_put (m : Mem) (r a : Nat) : inv q m r a = (inverseMod q (toLong q m a a).raw).map fun i =>
    put (toLong q m a) r (if (toLong q m a a).mont then ⟨(toLong q m a r).short, true, true, f1mMul q i (r3 q)⟩ else ⟨(toLong q m a r).short, true, false, i⟩) := by
  unfold inv
  simp only
  generalize toLong q m a = m1
  cases inverseMod q (m1 a).raw with
  | none => rfl
  | some i =>
    simp only [Option.map_some]
    have e : (setRaw m1 r i a).mont = (m1 a).mont := by
      unfold setRaw put; split
      · rename_i h; rw [h]
      · rfl
    rw [e]
    cases hm : (m1 a).mont with
    | true =>
      simp only [if_true]
      unfold setRaw flags
      simp only [put_put, put_same]
    | false => simp only [Bool.false_eq_true, if_false, flags_of_raw]

theorem res_inv (m : Mem) (r a : Nat) {x z : Int} (hx : Is q (m a) x) (hz : x * z ≡ 1 [ZMOD q]) :
    ∃ m', inv q m r a = some m' ∧ Res q m m' r z := by
  have hc := conv_toLong hq m a
  have hx' := hc a x hx
  have hl := toLong_long (q := q) m a
  rw [inv_put]
  generalize toLong q m a = m1 at *
  have hP := hx'.long hl
  obtain ⟨v, e1, e2, e3⟩ := inverseMod_spec hq hP.1
  have cop : ∀ {u z : Int}, u * z ≡ 1 [ZMOD q] → ∀ {n : Nat}, (n : Int) ≡ u [ZMOD q] → Nat.Coprime n q := by
    intro u z hu n hn
    have h1 : (n : Int) * z ≡ 1 [ZMOD q] := (hn.mul_right z).trans hu
    obtain ⟨k, hk⟩ := h1.dvd
    rw [Nat.Coprime, ← Int.gcd_natCast_natCast]
    apply Int.isCoprime_iff_gcd_eq_one.1
    exact ⟨z, k, by linear_combination -hk⟩
  have hcop : Nat.Coprime (m1 a).raw q := by
    cases hm : (m1 a).mont with
    | false => rw [hm] at hP; exact cop hz hP.2
    | true =>
      rw [hm] at hP
      have h1 : IsCoprime (q : Int) (R q : Int) := Int.isCoprime_iff_gcd_eq_one.2 (by rw [Int.gcd_natCast_natCast]; exact coprime_R hq)
      obtain ⟨s, t, hst⟩ := h1
      have h2 : (R q : Int) * t ≡ 1 [ZMOD q] := Int.modEq_iff_dvd.2 ⟨s, by linear_combination -hst⟩
      refine cop (u := x * R q) (z := z * t) ?_ hP.2
      have := hz.mul h2
      rw [mul_one] at this
      convert this using 1; ring
  obtain ⟨e4, e5⟩ := e3 hcop
  refine ⟨_, by rw [e1]; rfl, res_put hc ?_⟩
  cases hm : (m1 a).mont with
  | false =>
    rw [hm] at hP
    simp only [Bool.false_eq_true, if_false] at hP ⊢
    refine is_long ⟨e4, ?_⟩
    have h1 : (v : Int) * x ≡ 1 [ZMOD q] := (hP.2.symm.mul_left _).trans e5
    have h2 : (v : Int) * x * z ≡ z [ZMOD q] := by have := h1.mul_right z; rwa [one_mul] at this
    have h3 : (v : Int) * x * z ≡ v [ZMOD q] := by have := hz.mul_left (v : Int); rw [mul_one, ← mul_assoc] at this; exact this
    exact h3.symm.trans h2
  | true =>
    rw [hm] at hP
    simp only [if_true] at hP ⊢
    refine is_mont (plain_mul hq (Plain.self e4) (plain_r3 hq) ?_)
    have h1 : (v : Int) * (x * R q) ≡ 1 [ZMOD q] := (hP.2.symm.mul_left _).trans e5
    have h2 : (v : Int) * R q ≡ z [ZMOD q] := by
      have a1 := h1.mul_right z
      have a2 := hz.mul_left ((v : Int) * R q)
      rw [one_mul] at a1
      rw [mul_one] at a2
      exact a2.symm.trans (by convert a1 using 1; ring)
    have := h2.mul_right ((R q : Int) * R q)
    convert this using 1 <;> ring

end

end Verif.WFr
