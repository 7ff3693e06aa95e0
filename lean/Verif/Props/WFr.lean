import Verif.WFrShLemmas
import Verif.Props.Frg

/-!
# C84: the WebAssembly program computes what the compiler computes

The generated WebAssembly module has its own arithmetic (`fr-code.wat` of each prime), on elements in memory that are small signed numbers,
limbs, or limbs times `2^(64·n)`, and that many functions convert in place.  `Props.Ir.prime q` has the compiler's functions
(`modular_arithmetic.rs`) for each operator, `none` where they report an error or abort; `Props.Frg.Denotes` says which number an
element is for.
-/

namespace Verif.Props.WFr

set_option linter.unusedSimpArgs false
set_option linter.unusedVariables false
set_option linter.unusedSectionVars false

open Verif.Ir Verif.WFr Verif.Props.Ir
open Verif.Frg (El qbits n64 R Plain Is sg Sh shlSpec shrSpec lt_qbits le_qbits)
open Verif.Props.Frg (Denotes R_cast Plain.eq_emod prime_pow prime_div prime_shiftL prime_shiftR)

theorem denotes_iff {q : Nat} (hq : Good q) {e : El} {v : Int} : Denotes q e v ↔ Is q e v ∧ 0 ≤ v ∧ v < q := by
  have hb : (2 : Int) ^ 63 < q := by exact_mod_cast hq.big
  have mk : ∀ {x : Int}, (e.raw : Int) = x % q → Plain q e.raw x := by
    intro x h
    refine ⟨?_, ?_⟩
    · have : (e.raw : Int) < q := by rw [h]; exact Int.emod_lt_of_pos _ (by omega)
      exact_mod_cast this
    · rw [h]; exact Int.mod_modEq _ _
  constructor
  · rintro ⟨v0, v1, h1, h2, h3⟩
    refine ⟨?_, v0, v1⟩
    rw [← R_cast] at h3
    unfold Is
    cases el : e.long with
    | true =>
      rw [if_pos rfl]
      cases em : e.mont with
      | true => rw [if_pos rfl]; exact mk (h3 em)
      | false =>
        rw [if_neg (by decide)]
        exact mk (by rw [h2 el em, Int.emod_eq_of_lt v0 v1])
    | false =>
      rw [if_neg (by decide)]
      obtain ⟨s1, s2, s3⟩ := h1 el
      refine ⟨⟨s1, s2, ?_⟩, fun em => mk (h3 em)⟩
      rcases s3 with s3 | s3
      · rw [s3]
      · rw [s3]; simp [Int.ModEq]
  · rintro ⟨h, v0, v1⟩
    refine ⟨v0, v1, fun el => ?_, fun el em => (h.longPlain el em).eq v0 v1, fun em => ?_⟩
    · have hs := h.isShort el
      have := sh_sg hq hs v0 v1
      refine ⟨hs.1, hs.2.1, ?_⟩
      unfold sg at this
      split at this
      · exact Or.inl this.symm
      · exact Or.inr this.symm
    · rw [← R_cast]
      exact Plain.eq_emod (h.isMont em)

theorem pos {q : Nat} (hq : Good q) : (0 : Int) < q := by exact_mod_cast hq.pos

theorem one_lt {q : Nat} (hq : Good q) : (1 : Int) < q := by
  have : (2 : Int) ^ 63 < q := by exact_mod_cast hq.big
  omega

theorem bits {q : Nat} (hq : Good q) : Props.ModArith.NumBits q (qbits q) := by
  have h1 := lt_qbits q
  have h2 := le_qbits hq.pos.ne'
  exact ⟨by exact_mod_cast h1, by exact_mod_cast h2⟩

/-- Every element, but those at `r` and the two scratch elements, is for the same number as before. -/
def Keeps (q : Nat) (m m' : Mem) (r : Nat) : Prop :=
  ∀ c, c ≠ r → c ≠ s1 → c ≠ s2 q → ∀ t, Denotes q (m c) t → Denotes q (m' c) t

theorem keeps_of {q : Nat} (hq : Good q) {m m' : Mem} {r : Nat} {z : Int} (h : Res q m m' r z) : Keeps q m m' r := by
  intro c c1 c2 c3 t ht
  obtain ⟨h1, h2⟩ := (denotes_iff hq).1 ht
  exact (denotes_iff hq).2 ⟨h.2 c c1 c2 c3 t h1, h2⟩

theorem fin {q : Nat} (hq : Good q) {m m' : Mem} {r : Nat} {v z : Int} (hv : v = z % q) (h : Res q m m' r z) :
    Denotes q (m' r) v ∧ Keeps q m m' r := by
  have hp := pos hq
  subst hv
  exact ⟨(denotes_iff hq).2 ⟨h.1.congr (Int.mod_modEq _ _).symm, Int.emod_nonneg _ (by omega), Int.emod_lt_of_pos _ hp⟩, keeps_of hq h⟩

theorem finN {q : Nat} (hq : Good q) {m m' : Mem} {r : Nat} {v : Int} {n : Nat} (hv : v = n) (hn : n < q) (h : Res q m m' r n) :
    Denotes q (m' r) v ∧ Keeps q m m' r := by
  subst hv
  exact ⟨(denotes_iff hq).2 ⟨h.1, by omega, by exact_mod_cast hn⟩, keeps_of hq h⟩

theorem finB {q : Nat} (hq : Good q) {m m1 : Mem} {r : Nat} {v : Int} (c : Prop) [Decidable c] (hc : Conv q m m1)
    (hv : v = if c then 1 else 0) : Denotes q (setBool m1 r (decide c) r) v ∧ Keeps q m (setBool m1 r (decide c)) r := by
  have h := res_bool hc r (decide c)
  have h1 := one_lt hq
  refine ⟨(denotes_iff hq).2 ⟨?_, ?_, ?_⟩, keeps_of hq h⟩
  · subst hv; simpa using h.1
  · subst hv; split <;> omega
  · subst hv; split <;> omega

theorem norm_of {q : Nat} (hq : Good q) {x : Int} (h0 : 0 ≤ x) (h1 : x < q) :
    ModArith.normalize x q = if x = 0 then 0 else 1 := by
  rw [ModArith.normalize_eq _ (pos hq), Int.emod_eq_of_lt h0 h1]

theorem signed {q : Nat} (hq : Good q) {x : Int} (h0 : 0 ≤ x) (h1 : x < q) : Props.ModArith.IsSigned q x (sg q x) := by
  unfold Props.ModArith.IsSigned sg
  have := hq.odd
  split
  · exact ⟨Int.ModEq.refl _, by omega, by omega⟩
  · exact ⟨by simp [Int.ModEq], by omega, by omega⟩

theorem shifts {q X Y : Nat} (hq : Good q) (hX : X < q) (hY : Y < q) :
    (Y < 2 ^ 64 ∨ q - Y < 2 ^ 64 →
      ModArith.shiftL X Y q = .ok (shlSpec q X Y : Nat) ∧ ModArith.shiftR X Y q = .ok (shrSpec q X Y : Nat)) ∧
    (¬ (Y < 2 ^ 64 ∨ q - Y < 2 ^ 64) → shlSpec q X Y = 0 ∧ shrSpec q X Y = 0) := by
  have hp := pos hq
  have h1 := lt_qbits q
  have h2 := two_qbits hq
  have h3 := qbits_small hq
  have hbig := hq.big
  have cx : Props.ModArith.Canonical q X := ⟨by omega, by exact_mod_cast hX⟩
  have big : ∀ k, ¬ k < qbits q → X / 2 ^ k = 0 ∧ X * 2 ^ k % 2 ^ qbits q % q = 0 := by
    intro k hk
    have hle : 2 ^ qbits q ≤ 2 ^ k := Nat.pow_le_pow_right (by decide) (by omega)
    refine ⟨Nat.div_eq_of_lt (by omega), ?_⟩
    obtain ⟨j, rfl⟩ := Nat.exists_eq_add_of_le (not_lt.1 hk)
    rw [pow_add, mul_left_comm, Nat.mul_mod_right, Nat.zero_mod]
  have sml : ∀ k : Nat, 2 * k ≤ q → k < 2 ^ 64 →
      ModArith.shiftL X k q = .ok ((X * 2 ^ k % 2 ^ qbits q % q : Nat) : Int) ∧
      ModArith.shiftR X k q = .ok ((X / 2 ^ k : Nat) : Int) := by
    intro k hk hk64
    refine ⟨?_, ?_⟩
    · rw [Props.ModArith.C08_shiftL_small X q k _ hp cx (bits hq) (by exact_mod_cast hk) hk64]
      push_cast; rfl
    · rw [(Props.ModArith.C08_shiftR_small X q k hp cx (by exact_mod_cast hk) hk64).1]
      push_cast; rfl
  have hodd := hq.odd
  constructor
  · intro h
    by_cases hh : 2 * Y ≤ q
    · have hy64 : Y < 2 ^ 64 := by omega
      obtain ⟨e1, e2⟩ := sml Y hh hy64
      rw [e1, e2]
      unfold shlSpec shrSpec
      by_cases hb : Y < qbits q
      · rw [if_pos hb, if_pos hb]; exact ⟨rfl, rfl⟩
      · have hn : ¬ q - Y < qbits q := by omega
        rw [if_neg hb, if_neg hb, if_neg hn, if_neg hn, (big Y hb).1, (big Y hb).2]
        exact ⟨rfl, rfl⟩
    · have hk : (q : Int) < 2 * (Y : Int) := by omega
      obtain ⟨d1, d2⟩ := Props.ModArith.C08_dual X Y q hp hk
      have hy64 : q - Y < 2 ^ 64 := by omega
      obtain ⟨e1, e2⟩ := sml (q - Y) (by omega) hy64
      have hc : ((q - Y : Nat) : Int) = (q : Int) - Y := by omega
      rw [hc] at e1 e2
      rw [d1, d2, e1, e2]
      unfold shlSpec shrSpec
      have hb : ¬ Y < qbits q := by omega
      rw [if_neg hb, if_neg hb]
      by_cases hn : q - Y < qbits q
      · rw [if_pos hn, if_pos hn]; exact ⟨rfl, rfl⟩
      · rw [if_neg hn, if_neg hn, (big _ hn).1, (big _ hn).2]
        exact ⟨rfl, rfl⟩
  · intro h
    have hb : ¬ Y < qbits q := by omega
    have hn : ¬ q - Y < qbits q := by omega
    unfold shlSpec shrSpec
    rw [if_neg hb, if_neg hb, if_neg hn, if_neg hn]
    exact ⟨rfl, rfl⟩

theorem shift_huge {q Y : Nat} (hq : Good q) (hY : Y < q) (X : Int) (h : ¬ (Y < 2 ^ 64 ∨ q - Y < 2 ^ 64)) :
    ModArith.shiftL X Y q = .error .divisionByZero ∧ ModArith.shiftR X Y q = .error .divisionByZero := by
  obtain ⟨e1, e2, _, _⟩ := Props.ModArith.C08_error_iff X Y q (pos hq)
  have : 2 ^ 64 ≤ Props.ModArith.EffectiveAmount q Y := by
    unfold Props.ModArith.EffectiveAmount
    split <;> omega
  exact ⟨e1.2 (Or.inr this), e2.2 (Or.inr this)⟩

theorem specs_lt {q X Y : Nat} (hq : Good q) (hX : X < q) : shlSpec q X Y < q ∧ shrSpec q X Y < q := by
  have d : ∀ k, X / 2 ^ k < q := fun k => lt_of_le_of_lt (Nat.div_le_self _ _) hX
  have m : ∀ k, X * 2 ^ k % 2 ^ qbits q % q < q := fun k => Nat.mod_lt _ hq.pos
  unfold shlSpec shrSpec
  have := hq.pos
  constructor <;> (split; · first | exact d _ | exact m _) <;> (split; · first | exact d _ | exact m _) <;> omega

/-- Where a function is called: the scratch elements are not the result or an operand, the operands are not where the result goes (it is a
temporary of the expression, `Props.Slots`), and the constant with the length of the prime is in its place. -/
structure Call (q : Nat) (m : Mem) (r a b : Nat) : Prop where
  r_s1 : r ≠ s1
  r_s2 : r ≠ s2 q
  a_r : a ≠ r
  b_r : b ≠ r
  a_s1 : a ≠ s1
  a_s2 : a ≠ s2 q
  b_s1 : b ≠ s1
  b_s2 : b ≠ s2 q
  len : Denotes q (m (cBits q)) (Nat.log2 q + 1 : Nat)

section
variable {q : Nat} (hq : Good q) {m : Mem} {r a b : Nat} (hc : Call q m r a b) {x y : Int} (ha : Denotes q (m a) x) (hb : Denotes q (m b) y)
include hq hc ha hb

theorem cmp_case {o : Infix} {v : Int}
    (ho : o = .lesser ∨ o = .lesserEq ∨ o = .greater ∨ o = .greaterEq ∨ o = .eq ∨ o = .notEq)
    (h : (prime q).inf o x y = some v) : ∃ m', infixOp q o m r a b = some m' ∧ Denotes q (m' r) v ∧ Keeps q m m' r := by
  obtain ⟨ia, x0, x1⟩ := (denotes_iff hq).1 ha
  obtain ⟨ib, y0, y1⟩ := (denotes_iff hq).1 hb
  obtain ⟨c1, c2, c3, c4, c5, c6⟩ := Props.ModArith.C06_comparisons x y q _ _ (one_lt hq) (signed hq x0 x1) (signed hq y0 y1)
  have inj := Frg.sg_inj (q := q) x0 x1 y0 y1
  obtain ⟨⟨m1, k1, e1⟩, ⟨m2, k2, e2⟩, ⟨m3, k3, e3⟩, ⟨m4, k4, e4⟩, ⟨m5, k5, e5⟩, ⟨m6, k6, e6⟩⟩ := cmp_spec hq m r a b ia ib x0 x1 y0 y1
  rcases ho with rfl | rfl | rfl | rfl | rfl | rfl <;> simp only [prime, Option.some.injEq] at h
  · exact ⟨_, congrArg some e3, finB hq _ k3 (by rw [← h, c1])⟩
  · exact ⟨_, congrArg some e4, finB hq _ k4 (by rw [← h, c2])⟩
  · exact ⟨_, congrArg some e5, finB hq _ k5 (by rw [← h, c3])⟩
  · exact ⟨_, congrArg some e6, finB hq _ k6 (by rw [← h, c4])⟩
  · exact ⟨_, congrArg some e1, finB hq _ k1 (by rw [← h, c5]; simp only [inj])⟩
  · exact ⟨_, congrArg some e2, finB hq _ k2 (by rw [← h, c6]; simp only [ne_eq, inj])⟩

theorem logic_case {o : Infix} {v : Int} (ho : o = .boolOr ∨ o = .boolAnd)
    (h : (prime q).inf o x y = some v) : ∃ m', infixOp q o m r a b = some m' ∧ Denotes q (m' r) v ∧ Keeps q m m' r := by
  obtain ⟨ia, x0, x1⟩ := (denotes_iff hq).1 ha
  obtain ⟨ib, y0, y1⟩ := (denotes_iff hq).1 hb
  have ta := isTrue_spec hq m a ia x0 x1
  have tb := isTrue_spec hq m b ib y0 y1
  rcases ho with rfl | rfl <;>
    simp only [prime, Option.some.injEq, ModArith.boolOr, ModArith.boolAnd, norm_of hq x0 x1, norm_of hq y0 y1] at h
  · refine ⟨_, congrArg some (show lor q m r a b = setBool m r (decide (x ≠ 0 ∨ y ≠ 0)) by unfold lor; rw [ta, tb]; simp),
      finB hq _ (Conv.refl _ _) ?_⟩
    rw [← h]
    by_cases h1 : x = 0 <;> by_cases h2 : y = 0 <;> simp [h1, h2]
  · refine ⟨_, congrArg some (show land q m r a b = setBool m r (decide (x ≠ 0 ∧ y ≠ 0)) by unfold land; rw [ta, tb]; simp),
      finB hq _ (Conv.refl _ _) ?_⟩
    rw [← h]
    by_cases h1 : x = 0 <;> by_cases h2 : y = 0 <;> simp [h1, h2]

theorem bits_case {o : Infix} {v : Int} (ho : o = .bitOr ∨ o = .bitAnd ∨ o = .bitXor)
    (h : (prime q).inf o x y = some v) : ∃ m', infixOp q o m r a b = some m' ∧ Denotes q (m' r) v ∧ Keeps q m m' r := by
  obtain ⟨ia, x0, x1⟩ := (denotes_iff hq).1 ha
  obtain ⟨ib, y0, y1⟩ := (denotes_iff hq).1 hb
  obtain ⟨X, rfl⟩ := Int.eq_ofNat_of_zero_le x0
  obtain ⟨Y, rfl⟩ := Int.eq_ofNat_of_zero_le y0
  have hX : X < q := by exact_mod_cast x1
  have hY : Y < q := by exact_mod_cast y1
  rcases ho with rfl | rfl | rfl <;> simp only [prime, Option.some.injEq] at h
  · refine ⟨_, rfl, fin hq ?_ (res_bit2 hq (β := (· || ·)) (fun x y j => Nat.testBit_or x y j) (fun k x y hx hy => Nat.or_lt_two_pow hx hy) m r a b ia ib hX hY)⟩
    rw [← h, ← ModArith.modulus_eq_emod _ (pos hq)]; rfl
  · refine ⟨_, rfl, fin hq ?_ (res_bit2 hq (β := (· && ·)) (fun x y j => Nat.testBit_and x y j) (fun k x y hx hy => lt_of_le_of_lt Nat.and_le_left hx) m r a b ia ib hX hY)⟩
    rw [← h, ← ModArith.modulus_eq_emod _ (pos hq)]; rfl
  · refine ⟨_, rfl, fin hq ?_ (res_bit2 hq (β := bne) (fun x y j => Nat.testBit_xor x y j) (fun k x y hx hy => Nat.xor_lt_two_pow hx hy) m r a b ia ib hX hY)⟩
    rw [← h, ← ModArith.modulus_eq_emod _ (pos hq)]; rfl

theorem shift_case {o : Infix} {v : Int} (ho : o = .shiftL ∨ o = .shiftR)
    (h : (prime q).inf o x y = some v) : ∃ m', infixOp q o m r a b = some m' ∧ Denotes q (m' r) v ∧ Keeps q m m' r := by
  obtain ⟨ia, x0, x1⟩ := (denotes_iff hq).1 ha
  obtain ⟨ib, y0, y1⟩ := (denotes_iff hq).1 hb
  obtain ⟨X, rfl⟩ := Int.eq_ofNat_of_zero_le x0
  obtain ⟨Y, rfl⟩ := Int.eq_ofNat_of_zero_le y0
  have hX : X < q := by exact_mod_cast x1
  have hY : Y < q := by exact_mod_cast y1
  have ic := ((denotes_iff hq).1 hc.len).1
  obtain ⟨s1, _⟩ := shifts hq hX hY
  have lts := specs_lt (Y := Y) hq hX
  by_cases hc' : Y < 2 ^ 64 ∨ q - Y < 2 ^ 64
  · obtain ⟨e1, e2⟩ := s1 hc'
    rcases ho with rfl | rfl
    · rw [prime_shiftL] at h
      change res (ModArith.shiftL (X : Int) (Y : Int) q) = _ at h
      rw [e1] at h
      simp only [res, Option.some.injEq] at h
      exact ⟨_, rfl, finN hq h.symm lts.1 (res_shl hq m hc.a_s1 hc.a_s2 hc.b_s1 hc.b_s2 ia ib ic hX hY)⟩
    · rw [prime_shiftR] at h
      change res (ModArith.shiftR (X : Int) (Y : Int) q) = _ at h
      rw [e2] at h
      simp only [res, Option.some.injEq] at h
      exact ⟨_, rfl, finN hq h.symm lts.2 (res_shr hq m hc.a_s1 hc.a_s2 hc.b_s1 hc.b_s2 ia ib ic hX hY)⟩
  · obtain ⟨e1, e2⟩ := shift_huge hq hY X hc'
    rcases ho with rfl | rfl
    · rw [prime_shiftL] at h
      change res (ModArith.shiftL (X : Int) (Y : Int) q) = _ at h
      rw [e1] at h; cases h
    · rw [prime_shiftR] at h
      change res (ModArith.shiftR (X : Int) (Y : Int) q) = _ at h
      rw [e2] at h; cases h

theorem big_case {o : Infix} {v : Int} (ho : o = .div ∨ o = .intDiv ∨ o = .mod ∨ (o = .pow ∧ a ≠ b))
    (h : (prime q).inf o x y = some v) : ∃ m', infixOp q o m r a b = some m' ∧ Denotes q (m' r) v ∧ Keeps q m m' r := by
  obtain ⟨ia, x0, x1⟩ := (denotes_iff hq).1 ha
  obtain ⟨ib, y0, y1⟩ := (denotes_iff hq).1 hb
  rcases ho with rfl | rfl | rfl | ⟨rfl, hne⟩
  · rw [prime_div] at h
    unfold ModArith.div at h
    cases hi : ModArith.modInverse y q with
    | none => rw [hi] at h; simp [res] at h
    | some i =>
      rw [hi] at h
      simp only [res, Option.some.injEq] at h
      obtain ⟨m', e1, e2⟩ := res_div hq m ia ib (ModArith.modInverse_spec hi) hc.a_r hc.a_s1 hc.a_s2
      refine ⟨m', e1, fin hq ?_ e2⟩
      rw [← h, mul_comm, ← ModArith.modulus_eq_emod _ (pos hq)]; rfl
  · obtain ⟨X, rfl⟩ := Int.eq_ofNat_of_zero_le x0
    obtain ⟨Y, rfl⟩ := Int.eq_ofNat_of_zero_le y0
    have hX : X < q := by exact_mod_cast x1
    have hY : Y < q := by exact_mod_cast y1
    rw [Gold.prime_intDiv] at h
    change res (ModArith.idiv (X : Int) (Y : Int) q) = _ at h
    rw [Gold.idiv_of x1 y1] at h
    by_cases hb0 : Y = 0
    · rw [if_pos hb0] at h; simp [res] at h
    · rw [if_neg hb0] at h
      simp only [res, Option.some.injEq] at h
      obtain ⟨m', e1, e2⟩ := ((res_idiv hq m hc.r_s1 ia ib hX hY).2 (by omega)).1
      exact ⟨m', e1, finN hq h.symm (lt_of_le_of_lt (Nat.div_le_self _ _) hX) e2⟩
  · obtain ⟨X, rfl⟩ := Int.eq_ofNat_of_zero_le x0
    obtain ⟨Y, rfl⟩ := Int.eq_ofNat_of_zero_le y0
    have hX : X < q := by exact_mod_cast x1
    have hY : Y < q := by exact_mod_cast y1
    rw [Gold.prime_mod] at h
    change res (ModArith.modOp (X : Int) (Y : Int) q) = _ at h
    rw [Gold.modOp_of x1 y1] at h
    by_cases hb0 : Y = 0
    · rw [if_pos hb0] at h; simp [res] at h
    · rw [if_neg hb0] at h
      simp only [res, Option.some.injEq] at h
      obtain ⟨m', e1, e2⟩ := ((res_idiv hq m hc.r_s1 ia ib hX hY).2 (by omega)).2
      exact ⟨m', e1, finN hq h.symm (lt_of_le_of_lt (Nat.mod_le _ _) hX) e2⟩
  · obtain ⟨Y, rfl⟩ := Int.eq_ofNat_of_zero_le y0
    have hY : Y < q := by exact_mod_cast y1
    rw [prime_pow] at h
    obtain ⟨p, h1, ⟨h2, h3⟩, h4⟩ := Props.ModArith.C05_pow x Y q hq.pos
    change res (ModArith.pow x (Y : Int) q) = _ at h
    rw [h1] at h
    simp only [res, Option.some.injEq] at h
    subst h
    have e : p = x ^ Y % q := by
      have := (ZMod.intCast_eq_intCast_iff p (x ^ Y) q).1 (by push_cast; exact h4)
      unfold Int.ModEq at this
      rwa [Int.emod_eq_of_lt h2 h3] at this
    exact ⟨_, rfl, fin hq e (res_pow hq m hne ia ib hY)⟩

/-- Operators with two operands: where the compiler's arithmetic has a result, the program leaves an element for the same number in the place
of the result, whatever forms the operands are in, and every other element is for the same number as before, operands included, though they
may be converted.  The operands of a power must be different elements (see `C84_pow_violated`). -/
theorem C84_infix_partial (o : Infix) (v : Int) (h : (prime q).inf o x y = some v) (hpow : o = .pow → a ≠ b) :
    ∃ m', infixOp q o m r a b = some m' ∧ Denotes q (m' r) v ∧ Keeps q m m' r := by
  obtain ⟨ia, x0, x1⟩ := (denotes_iff hq).1 ha
  obtain ⟨ib, y0, y1⟩ := (denotes_iff hq).1 hb
  cases o with
  | mul =>
    simp only [prime, Option.some.injEq] at h
    exact ⟨_, rfl, fin hq (by rw [← h, ← ModArith.modulus_eq_emod _ (pos hq)]; rfl) (res_mul hq m r a b ia ib)⟩
  | add =>
    simp only [prime, Option.some.injEq] at h
    exact ⟨_, rfl, fin hq (by rw [← h, ← ModArith.modulus_eq_emod _ (pos hq)]; rfl) (res_add hq m hc.r_s1 hc.a_s1 hc.b_s1 ia ib)⟩
  | sub =>
    simp only [prime, Option.some.injEq] at h
    exact ⟨_, rfl, fin hq (by rw [← h, ← ModArith.modulus_eq_emod _ (pos hq)]; rfl) (res_sub hq m hc.r_s1 hc.a_s1 hc.b_s1 ia ib)⟩
  | div => exact big_case hq hc ha hb (by simp) h
  | pow => exact big_case hq hc ha hb (by simp [hpow]) h
  | intDiv => exact big_case hq hc ha hb (by simp) h
  | mod => exact big_case hq hc ha hb (by simp) h
  | shiftL => exact shift_case hq hc ha hb (by simp) h
  | shiftR => exact shift_case hq hc ha hb (by simp) h
  | lesserEq => exact cmp_case hq hc ha hb (by simp) h
  | greaterEq => exact cmp_case hq hc ha hb (by simp) h
  | lesser => exact cmp_case hq hc ha hb (by simp) h
  | greater => exact cmp_case hq hc ha hb (by simp) h
  | eq => exact cmp_case hq hc ha hb (by simp) h
  | notEq => exact cmp_case hq hc ha hb (by simp) h
  | boolOr => exact logic_case hq hc ha hb (by simp) h
  | boolAnd => exact logic_case hq hc ha hb (by simp) h
  | bitOr => exact bits_case hq hc ha hb (by simp) h
  | bitAnd => exact bits_case hq hc ha hb (by simp) h
  | bitXor => exact bits_case hq hc ha hb (by simp) h

/-- Where the compiler's arithmetic has no result, the program traps for `\` and `%`; for `/` with divisor `0`, and for shifts by `2^64` or more,
which the compiler refuses, the result at run time is `0`. -/
theorem C84_undefined (o : Infix) (h : (prime q).inf o x y = none) (hy : o = .div → y = 0) :
    (infixOp q o m r a b = none ∧ (o = .intDiv ∨ o = .mod) ∧ y = 0) ∨
    ((∃ m', infixOp q o m r a b = some m' ∧ Denotes q (m' r) 0 ∧ Keeps q m m' r) ∧
      ((o = .div ∧ y = 0) ∨ ((o = .shiftL ∨ o = .shiftR) ∧ 2 ^ 64 ≤ y ∧ 2 ^ 64 ≤ q - y))) := by
  obtain ⟨ia, x0, x1⟩ := (denotes_iff hq).1 ha
  obtain ⟨ib, y0, y1⟩ := (denotes_iff hq).1 hb
  have ic := ((denotes_iff hq).1 hc.len).1
  have sh : o = .shiftL ∨ o = .shiftR →
      (∃ m', infixOp q o m r a b = some m' ∧ Denotes q (m' r) 0 ∧ Keeps q m m' r) ∧ (o = .shiftL ∨ o = .shiftR) ∧ 2 ^ 64 ≤ y ∧ 2 ^ 64 ≤ q - y := by
    intro ho
    obtain ⟨X, rfl⟩ := Int.eq_ofNat_of_zero_le x0
    obtain ⟨Y, rfl⟩ := Int.eq_ofNat_of_zero_le y0
    have hX : X < q := by exact_mod_cast x1
    have hY : Y < q := by exact_mod_cast y1
    obtain ⟨s1, s2⟩ := shifts hq hX hY
    by_cases hc' : Y < 2 ^ 64 ∨ q - Y < 2 ^ 64
    · exfalso
      obtain ⟨e1, e2⟩ := s1 hc'
      rcases ho with rfl | rfl
      · rw [prime_shiftL] at h
        change res (ModArith.shiftL (X : Int) (Y : Int) q) = _ at h
        rw [e1] at h; cases h
      · rw [prime_shiftR] at h
        change res (ModArith.shiftR (X : Int) (Y : Int) q) = _ at h
        rw [e2] at h; cases h
    · obtain ⟨z1, z2⟩ := s2 hc'
      refine ⟨?_, ho, by omega, by omega⟩
      rcases ho with rfl | rfl
      · exact ⟨_, rfl, finN hq (n := 0) rfl hq.pos (by have := res_shl hq m (r := r) hc.a_s1 hc.a_s2 hc.b_s1 hc.b_s2 ia ib ic hX hY; rwa [z1] at this)⟩
      · exact ⟨_, rfl, finN hq (n := 0) rfl hq.pos (by have := res_shr hq m (r := r) hc.a_s1 hc.a_s2 hc.b_s1 hc.b_s2 ia ib ic hX hY; rwa [z2] at this)⟩
  cases o with
  | div =>
    have hy0 := hy rfl
    subst hy0
    obtain ⟨m1, e1, e2⟩ := res_inv_zero hq m r b ib
    obtain ⟨m', e3, e4⟩ := div_of hq e1 e2 ia hc.a_r hc.a_s1 hc.a_s2
    refine Or.inr ⟨⟨m', e3, fin hq ?_ e4⟩, Or.inl ⟨rfl, rfl⟩⟩
    simp
  | intDiv =>
    obtain ⟨X, rfl⟩ := Int.eq_ofNat_of_zero_le x0
    obtain ⟨Y, rfl⟩ := Int.eq_ofNat_of_zero_le y0
    rw [Gold.prime_intDiv] at h
    change res (ModArith.idiv (X : Int) (Y : Int) q) = _ at h
    rw [Gold.idiv_of x1 y1] at h
    by_cases hb0 : Y = 0
    · exact Or.inl ⟨((res_idiv hq m hc.r_s1 ia ib (by exact_mod_cast x1) (by exact_mod_cast y1)).1 hb0).1, by simp, by simp [hb0]⟩
    · rw [if_neg hb0] at h; simp [res] at h
  | mod =>
    obtain ⟨X, rfl⟩ := Int.eq_ofNat_of_zero_le x0
    obtain ⟨Y, rfl⟩ := Int.eq_ofNat_of_zero_le y0
    rw [Gold.prime_mod] at h
    change res (ModArith.modOp (X : Int) (Y : Int) q) = _ at h
    rw [Gold.modOp_of x1 y1] at h
    by_cases hb0 : Y = 0
    · exact Or.inl ⟨((res_idiv hq m hc.r_s1 ia ib (by exact_mod_cast x1) (by exact_mod_cast y1)).1 hb0).2, by simp, by simp [hb0]⟩
    · rw [if_neg hb0] at h; simp [res] at h
  | pow =>
    obtain ⟨Y, rfl⟩ := Int.eq_ofNat_of_zero_le y0
    rw [prime_pow] at h
    obtain ⟨p, h1, _, _⟩ := Props.ModArith.C05_pow x Y q hq.pos
    change res (ModArith.pow x (Y : Int) q) = _ at h
    rw [h1] at h; simp [res] at h
  | shiftL => obtain ⟨g1, g2⟩ := sh (by simp); exact Or.inr ⟨g1, Or.inr g2⟩
  | shiftR => obtain ⟨g1, g2⟩ := sh (by simp); exact Or.inr ⟨g1, Or.inr g2⟩
  | _ => simp [prime] at h

end

section
variable {q : Nat} (hq : Good q) {m : Mem} {a : Nat} {x : Int} (ha : Denotes q (m a) x)
include hq ha

/-- Operators with one operand. -/
theorem C84_prefix (r : Nat) (o : Prefix) (v : Int) (h : (prime q).pre o x = some v) :
    Denotes q (prefixOp q o m r a r) v ∧ Keeps q m (prefixOp q o m r a) r := by
  obtain ⟨ia, x0, x1⟩ := (denotes_iff hq).1 ha
  have hp := pos hq
  cases o with
  | sub =>
    simp only [prime, Option.some.injEq] at h
    refine fin hq (z := -x) ?_ (res_neg hq m r a ia)
    rw [← h]
    unfold ModArith.prefixSub ModArith.mul
    rw [ModArith.modulus_eq_emod _ hp]
    congr 1; ring
  | boolNot =>
    simp only [prime, Option.some.injEq, ModArith.not, norm_of hq x0 x1] at h
    have e : prefixOp q .boolNot m r a = setBool m r (decide (x = 0)) := by
      show lnot q m r a = _
      unfold lnot; rw [isTrue_spec hq m a ia x0 x1]; simp
    rw [e]
    refine finB hq _ (Conv.refl _ _) ?_
    rw [← h]
    by_cases h1 : x = 0 <;> simp [h1]
  | complement =>
    obtain ⟨X, rfl⟩ := Int.eq_ofNat_of_zero_le x0
    have hX : X < q := by exact_mod_cast x1
    simp only [prime, Option.some.injEq] at h
    rw [ModArith.complement_eq x0 hp (bits hq).1 (bits hq).2] at h
    have hlt := lt_qbits q
    refine fin hq ?_ (res_bnot hq m r a ia hX)
    rw [← h]
    congr 1
    have h1 : ((2 ^ qbits q - 1 - X : Nat) : Int) = 2 ^ qbits q - 1 - X := by
      have h3 : (1 : Nat) ≤ 2 ^ qbits q := Nat.one_le_two_pow
      rw [Nat.sub_sub, Nat.cast_sub (by omega)]
      push_cast; ring
    rw [h1, Int.emod_eq_of_lt (by omega) (by exact_mod_cast lt_trans hX hlt)]

/-- `if`, `while`, `assert`: the truth value. -/
theorem C84_truthy : Verif.WFr.isTrue q m a = (prime q).truthy x := by
  obtain ⟨ia, x0, x1⟩ := (denotes_iff hq).1 ha
  rw [isTrue_spec hq m a ia x0 x1]; rfl

/-- An index of an array: the number read with sign, in 32 bits; every element but the first scratch element keeps its number.  A number below
`2^31` is itself, and one below the prime by at most `2^31` is its distance from the prime, negative. -/
theorem C84_index (h1 : a ≠ s1) :
    ((toInt q m a).2 : Int) = (if 2 * x < q then x else x - q) % 2 ^ 32 ∧
    ∀ c, c ≠ s1 → ∀ t, Denotes q (m c) t → Denotes q ((toInt q m a).1 c) t := by
  obtain ⟨ia, x0, x1⟩ := (denotes_iff hq).1 ha
  obtain ⟨g1, g2, _⟩ := toInt_spec hq m a ia x0 x1 h1
  refine ⟨?_, fun c hc t ht => ?_⟩
  · rw [g2]
    congr 1
    have := hq.odd
    unfold sg
    split <;> split <;> omega
  · obtain ⟨k1, k2⟩ := (denotes_iff hq).1 ht
    exact (denotes_iff hq).2 ⟨g1 c hc t k1, k2⟩

/-- The limbs of an element made long and normal, which `getWitness` and the messages show, are its number. -/
theorem C84_limbs : ((toLongNormal q m a a).raw : Int) = x ∧ ∀ c t, Denotes q (m c) t → Denotes q (toLongNormal q m a c) t := by
  obtain ⟨ia, x0, x1⟩ := (denotes_iff hq).1 ha
  refine ⟨?_, fun c t ht => ?_⟩
  · have h1 := conv_longNormal hq m a a x ia
    have h2 : LN (toLongNormal q m a) a := by
      have := normal_LN (q := q) (toLong_long (q := q) m a)
      rw [toNormal_put, toLong_put, put_same, put_put] at this
      rw [toLongNormal_put]; exact this
    exact (h2.plain h1).eq x0 x1
  · obtain ⟨k1, k2⟩ := (denotes_iff hq).1 ht
    exact (denotes_iff hq).2 ⟨conv_longNormal hq m a c t k1, k2⟩

end

/-- The eight primes meet the hypotheses. -/
theorem C84_primes :
    Good 21888242871839275222246405745257275088548364400416034343698204186575808495617 ∧
    Good 52435875175126190479447740508185965837690552500527637822603658699938581184513 ∧
    Good 21888242871839275222246405745257275088696311157297823662689037894645226208583 ∧
    Good 28948022309329048855892746252171976963363056481941560715954676764349967630337 ∧
    Good 28948022309329048855892746252171976963363056481941647379679742748393362948097 ∧
    Good 115792089210356248762697446949407573530086143415290314195533631308867097853951 ∧
    Good 8444461749428370424248824938781546531375899335154063827935233455917409239041 ∧
    Good 18446744069414584321 := by
  refine ⟨⟨?_, ?_, ?_⟩, ⟨?_, ?_, ?_⟩, ⟨?_, ?_, ?_⟩, ⟨?_, ?_, ?_⟩, ⟨?_, ?_, ?_⟩, ⟨?_, ?_, ?_⟩, ⟨?_, ?_, ?_⟩, ⟨?_, ?_, ?_⟩⟩ <;> decide +kernel

/-- The numbers that the file of each prime has for the inverse modulo `2^32` (`fr-code.wat`, `i64.const … i64.mul` in `$Fr_F1m_mul`) and for
the mask of the highest word (`$Fr_adjustBinResult`), in the order of `C84_primes`. -/
theorem C84_constants :
    (np32 21888242871839275222246405745257275088548364400416034343698204186575808495617 = 4026531839 ∧
      topMask 21888242871839275222246405745257275088548364400416034343698204186575808495617 = 4611686018427387903) ∧
    (np32 52435875175126190479447740508185965837690552500527637822603658699938581184513 = 4294967295 ∧
      topMask 52435875175126190479447740508185965837690552500527637822603658699938581184513 = 9223372036854775807) ∧
    (np32 21888242871839275222246405745257275088696311157297823662689037894645226208583 = 3834012553 ∧
      topMask 21888242871839275222246405745257275088696311157297823662689037894645226208583 = 4611686018427387903) ∧
    (np32 28948022309329048855892746252171976963363056481941560715954676764349967630337 = 4294967295 ∧
      topMask 28948022309329048855892746252171976963363056481941560715954676764349967630337 = 9223372036854775807) ∧
    (np32 28948022309329048855892746252171976963363056481941647379679742748393362948097 = 4294967295 ∧
      topMask 28948022309329048855892746252171976963363056481941647379679742748393362948097 = 9223372036854775807) ∧
    (np32 115792089210356248762697446949407573530086143415290314195533631308867097853951 = 1 ∧
      topMask 115792089210356248762697446949407573530086143415290314195533631308867097853951 = 18446744073709551615) ∧
    (np32 8444461749428370424248824938781546531375899335154063827935233455917409239041 = 4294967295 ∧
      topMask 8444461749428370424248824938781546531375899335154063827935233455917409239041 = 2305843009213693951) ∧
    (np32 18446744069414584321 = 4294967295 ∧ topMask 18446744069414584321 = 18446744073709551615) := by
  refine ⟨⟨?_, ?_⟩, ⟨?_, ?_⟩, ⟨?_, ?_⟩, ⟨?_, ?_⟩, ⟨?_, ?_⟩, ⟨?_, ?_⟩, ⟨?_, ?_⟩, ⟨?_, ?_⟩⟩ <;> decide +kernel

/-- The prime of `bn128`. -/
abbrev bn : Nat := 21888242871839275222246405745257275088548364400416034343698204186575808495617

/-- A memory: at 200 the number `-5` short, at 240 `-7` in Montgomery form, at 280 `2^200 + 1` long, at 88 the length of the prime. -/
def mem : Mem := fun c =>
  if c = 88 then ⟨254, false, false, 0⟩ else if c = 200 then ⟨-5, false, false, 0⟩ else if c = 240 then ⟨0, true, true, ((bn - 7) * R bn) % bn⟩
  else if c = 280 then ⟨0, true, false, 2 ^ 200 + 1⟩ else ⟨0, false, false, 0⟩

example : Call bn mem 400 200 240 ∧ Denotes bn (mem 200) (bn - 5) ∧ Denotes bn (mem 240) (bn - 7) ∧ Denotes bn (mem 280) (2 ^ 200 + 1) := by
  unfold Denotes
  refine ⟨⟨?_, ?_, ?_, ?_, ?_, ?_, ?_, ?_, ?_⟩, ?_⟩ <;> first | (unfold Denotes; decide +kernel) | decide +kernel

/-- The number shown for an element. -/
def shown (m : Mem) (a : Nat) : Nat := (toLongNormal bn m a a).raw

example :
    (infixOp bn .mul mem 400 200 240).map (shown · 400) = some 35 ∧
    (infixOp bn .sub mem 400 200 280).map (shown · 400) = some (bn - 2 ^ 200 - 6) ∧
    (infixOp bn .add mem 400 240 280).map (shown · 400) = some (2 ^ 200 - 6) ∧
    (infixOp bn .lesser mem 400 240 200).map (shown · 400) = some 1 ∧
    (infixOp bn .shiftR mem 400 280 200).map (shown · 400) = some (2 ^ 205 + 2 ^ 5) ∧
    (infixOp bn .bitAnd mem 400 200 280).map (shown · 400) = some ((bn - 5) &&& (2 ^ 200 + 1)) := by
  refine ⟨?_, ?_, ?_, ?_, ?_, ?_⟩ <;> decide +kernel

example : ((infixOp bn .div mem 400 240 280).bind (fun m => infixOp bn .mul m 440 400 280)).map (shown · 440) = some (bn - 7) := by
  decide +kernel

/-- With both operands of a power in the same element, as in `x ** x` for a variable or signal `x`, the function reads the base in the form that
the exponent needs: for `3 ** 3` the result is not `27`, which the compiler, and the C++ program, have. -/
theorem C84_pow_violated : ∃ (m : Mem) (r a : Nat) (v : Int), Call bn m r a a ∧ Denotes bn (m a) 3 ∧ (prime bn).inf .pow 3 3 = some v ∧
    ∀ m', infixOp bn .pow m r a a = some m' → ¬ Denotes bn (m' r) v := by
  have hc : Call bn (fun c => if c = 88 then ⟨254, false, false, 0⟩ else ⟨3, false, false, 0⟩) 400 200 200 := by
    refine ⟨?_, ?_, ?_, ?_, ?_, ?_, ?_, ?_, ?_⟩ <;> first | (unfold Denotes; decide +kernel) | decide +kernel
  refine ⟨_, 400, 200, 27, hc, by unfold Denotes; decide +kernel, by decide +kernel, fun m' h hd => ?_⟩
  have h' := Option.some.inj h
  subst h'
  have := (C84_limbs C84_primes.1 hd).1
  revert this
  decide +kernel

end Verif.Props.WFr
