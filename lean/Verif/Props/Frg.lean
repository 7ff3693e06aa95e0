import Verif.FrgBitLemmas
import Verif.Props.Gold

/-!
# C81: without assembly, the C++ program computes what the compiler computes

For the primes other than `goldilocks`, and on machines other than x86-64, the generated program uses `generic/fr.cpp`, which keeps an
element as a small signed number, as its limbs or as its limbs times `2^(64·n)`.  `Props.Ir.prime q` has the compiler's functions
(`modular_arithmetic.rs`) for each operator, `none` where they report an error or abort.
-/

namespace Verif.Props.Frg

set_option linter.unusedSimpArgs false
set_option linter.unusedVariables false

open Verif.Ir Verif.Frg Verif.Props.Ir

/-- The number of an element.  `v` is in `[0, q)`; a short element has `v` or `v - q` in 32 signed bits; a long one has
`v`, or with the Montgomery flag `v · 2^(64·n)` reduced, `n` the number of limbs of `q`. -/
def Denotes (q : Nat) (e : El) (v : Int) : Prop :=
  0 ≤ v ∧ v < q ∧
  (e.long = false → -2 ^ 31 ≤ e.short ∧ e.short < 2 ^ 31 ∧ (e.short = v ∨ e.short = v - q)) ∧
  (e.long = true → e.mont = false → (e.raw : Int) = v) ∧
  (e.mont = true → (e.raw : Int) = v * 2 ^ (64 * (Nat.log2 q / 64 + 1)) % q)

theorem R_cast (q : Nat) : ((R q : Nat) : Int) = 2 ^ (64 * (Nat.log2 q / 64 + 1)) := by
  unfold R n64 qbits
  rw [show (Nat.log2 q + 1 + 63) / 64 = Nat.log2 q / 64 + 1 by omega]
  push_cast; rfl

theorem Plain.eq_emod {q raw : Nat} {x : Int} (h : Plain q raw x) : (raw : Int) = x % q := by
  have := h.2
  unfold Int.ModEq at this
  rwa [Int.emod_eq_of_lt (by omega) (by exact_mod_cast h.1)] at this

theorem denotes_iff {q : Nat} (hq : Good q) {e : El} {v : Int} :
    Denotes q e v ↔ Is q e v ∧ 0 ≤ v ∧ v < q := by
  have hb : (2 : Int) ^ 64 < q := by exact_mod_cast hq.big
  have mk : ∀ {x : Int}, (e.raw : Int) = x % q → Plain q e.raw x := by
    intro x h
    refine ⟨?_, ?_⟩
    · have : (e.raw : Int) < q := by rw [h]; exact Int.emod_lt_of_pos _ (by omega)
      exact_mod_cast this
    · rw [h]; exact Int.mod_modEq _ _
  constructor
  · rintro ⟨v0, v1, h1, h2, h3⟩
    refine ⟨?_, v0, v1⟩
    rw [← R_cast] at h3
    unfold Is
    cases el : e.long with
    | true =>
      rw [if_pos rfl]
      cases em : e.mont with
      | true => rw [if_pos rfl]; exact mk (h3 em)
      | false =>
        rw [if_neg (by decide)]
        exact mk (by rw [h2 el em, Int.emod_eq_of_lt v0 v1])
    | false =>
      rw [if_neg (by decide)]
      obtain ⟨s1, s2, s3⟩ := h1 el
      refine ⟨⟨s1, s2, ?_⟩, fun em => mk (h3 em)⟩
      rcases s3 with s3 | s3
      · rw [s3]
      · rw [s3]; simp [Int.ModEq]
  · rintro ⟨h, v0, v1⟩
    refine ⟨v0, v1, fun el => ?_, fun el em => (h.longPlain el em).eq v0 v1, fun em => ?_⟩
    · have hs := h.isShort el
      have := sh_sg hq hs v0 v1
      refine ⟨hs.1, hs.2.1, ?_⟩
      unfold sg at this
      split at this
      · exact Or.inl this.symm
      · exact Or.inr this.symm
    · rw [← R_cast]
      exact Plain.eq_emod (h.isMont em)

theorem pos {q : Nat} (hq : Good q) : (0 : Int) < q := by exact_mod_cast hq.pos

theorem one_lt {q : Nat} (hq : Good q) : (1 : Int) < q := by
  have : (2 : Int) ^ 64 < q := by exact_mod_cast hq.big
  omega

theorem bits {q : Nat} (hq : Good q) : Props.ModArith.NumBits q (qbits q) := by
  have h1 := lt_qbits q
  have h2 := le_qbits hq.pos.ne'
  exact ⟨by exact_mod_cast h1, by exact_mod_cast h2⟩

/-- The result of a compiler function that reduces. -/
theorem fin {q : Nat} (hq : Good q) {e : El} {v z : Int} (hv : v = z % q) (h : Is q e z) : Denotes q e v := by
  have hp := pos hq
  subst hv
  exact (denotes_iff hq).2 ⟨h.congr (Int.mod_modEq _ _).symm, Int.emod_nonneg _ (by omega), Int.emod_lt_of_pos _ hp⟩

theorem finN {q : Nat} (hq : Good q) {e : El} {v : Int} {n : Nat} (hv : v = n) (hn : n < q) (h : Is q e n) :
    Denotes q e v := by
  subst hv
  exact (denotes_iff hq).2 ⟨h, by omega, by exact_mod_cast hn⟩

theorem den_mpz {q : Nat} (hq : Good q) (r : El) {v : Int} (h0 : 0 ≤ v) (h1 : v < q) : Denotes q (fromMpz r v) v :=
  (denotes_iff hq).2 ⟨is_fromMpz r h0 h1, h0, h1⟩

theorem finB {q : Nat} (hq : Good q) (r : El) {v : Int} (c : Prop) [Decidable c] {t : Bool} (ht : t = decide c)
    (hv : v = if c then 1 else 0) : Denotes q (ofBool r t) v := by
  have h := is_ofBool (q := q) r t
  have h1 := one_lt hq
  subst ht hv
  refine (denotes_iff hq).2 ⟨?_, ?_, ?_⟩
  · simpa using h
  · split <;> omega
  · split <;> omega

theorem norm_of {q : Nat} (hq : Good q) {x : Int} (h0 : 0 ≤ x) (h1 : x < q) :
    ModArith.normalize x q = if x = 0 then 0 else 1 := by
  rw [ModArith.normalize_eq _ (pos hq), Int.emod_eq_of_lt h0 h1]

theorem signed {q : Nat} (hq : Good q) {x : Int} (h0 : 0 ≤ x) (h1 : x < q) : Props.ModArith.IsSigned q x (sg q x) := by
  unfold Props.ModArith.IsSigned sg
  have := hq.odd
  split
  · exact ⟨Int.ModEq.refl _, by omega, by omega⟩
  · exact ⟨by simp [Int.ModEq], by omega, by omega⟩

theorem prime_pow (p a b : Int) : (prime p).inf .pow a b = res (ModArith.pow a b p) := rfl
theorem prime_div (p a b : Int) : (prime p).inf .div a b = res (ModArith.div a b p) := rfl
theorem prime_shiftL (p a b : Int) : (prime p).inf .shiftL a b = res (ModArith.shiftL a b p) := rfl
theorem prime_shiftR (p a b : Int) : (prime p).inf .shiftR a b = res (ModArith.shiftR a b p) := rfl

/-- The compiler's shifts, on canonical operands. -/
theorem shifts {q X Y : Nat} (hq : Good q) (hX : X < q) (hY : Y < q) :
    (Y < 2 ^ 64 ∨ q - Y < 2 ^ 64 →
      ModArith.shiftL X Y q = .ok (shlSpec q X Y : Nat) ∧ ModArith.shiftR X Y q = .ok (shrSpec q X Y : Nat)) ∧
    (¬ (Y < 2 ^ 64 ∨ q - Y < 2 ^ 64) → shlSpec q X Y = 0 ∧ shrSpec q X Y = 0) := by
  have hp := pos hq
  have h1 := lt_qbits q
  have h2 := hq.two_qbits
  have h3 := hq.qbits_lt
  have cx : Props.ModArith.Canonical q X := ⟨by omega, by exact_mod_cast hX⟩
  have big : ∀ k, ¬ k < qbits q → X / 2 ^ k = 0 ∧ X * 2 ^ k % 2 ^ qbits q % q = 0 := by
    intro k hk
    have hle : 2 ^ qbits q ≤ 2 ^ k := Nat.pow_le_pow_right (by decide) (by omega)
    refine ⟨Nat.div_eq_of_lt (by omega), ?_⟩
    obtain ⟨j, rfl⟩ := Nat.exists_eq_add_of_le (not_lt.1 hk)
    rw [pow_add, mul_left_comm, Nat.mul_mod_right, Nat.zero_mod]
  have sml : ∀ k : Nat, 2 * k ≤ q → k < 2 ^ 64 →
      ModArith.shiftL X k q = .ok ((X * 2 ^ k % 2 ^ qbits q % q : Nat) : Int) ∧
      ModArith.shiftR X k q = .ok ((X / 2 ^ k : Nat) : Int) := by
    intro k hk hk64
    refine ⟨?_, ?_⟩
    · rw [Props.ModArith.C08_shiftL_small X q k _ hp cx (bits hq) (by exact_mod_cast hk) hk64]
      push_cast; rfl
    · rw [(Props.ModArith.C08_shiftR_small X q k hp cx (by exact_mod_cast hk) hk64).1]
      push_cast; rfl
  constructor
  · intro h
    have hodd := hq.odd
    have hbig := hq.big
    by_cases hh : 2 * Y ≤ q
    · have hy64 : Y < 2 ^ 64 := by omega
      obtain ⟨e1, e2⟩ := sml Y hh hy64
      rw [e1, e2]
      unfold shlSpec shrSpec
      by_cases hb : Y < qbits q
      · rw [if_pos hb, if_pos hb]; exact ⟨rfl, rfl⟩
      · have hn : ¬ q - Y < qbits q := by omega
        rw [if_neg hb, if_neg hb, if_neg hn, if_neg hn, (big Y hb).1, (big Y hb).2]
        exact ⟨rfl, rfl⟩
    · have hk : (q : Int) < 2 * (Y : Int) := by omega
      obtain ⟨d1, d2⟩ := Props.ModArith.C08_dual X Y q hp hk
      have hy64 : q - Y < 2 ^ 64 := by omega
      obtain ⟨e1, e2⟩ := sml (q - Y) (by omega) hy64
      have hc : ((q - Y : Nat) : Int) = (q : Int) - Y := by omega
      rw [hc] at e1 e2
      rw [d1, d2, e1, e2]
      unfold shlSpec shrSpec
      have hb : ¬ Y < qbits q := by omega
      rw [if_neg hb, if_neg hb]
      by_cases hn : q - Y < qbits q
      · rw [if_pos hn, if_pos hn]; exact ⟨rfl, rfl⟩
      · rw [if_neg hn, if_neg hn, (big _ hn).1, (big _ hn).2]
        exact ⟨rfl, rfl⟩
  · intro h
    have hw : w = 2 ^ 64 := rfl
    have hb : ¬ Y < qbits q := by omega
    have hn : ¬ q - Y < qbits q := by omega
    unfold shlSpec shrSpec
    rw [if_neg hb, if_neg hb, if_neg hn, if_neg hn]
    exact ⟨rfl, rfl⟩

theorem shift_huge {q Y : Nat} (hq : Good q) (hY : Y < q) (X : Int) (h : ¬ (Y < 2 ^ 64 ∨ q - Y < 2 ^ 64)) :
    ModArith.shiftL X Y q = .error .divisionByZero ∧ ModArith.shiftR X Y q = .error .divisionByZero := by
  obtain ⟨e1, e2, _, _⟩ := Props.ModArith.C08_error_iff X Y q (pos hq)
  have : 2 ^ 64 ≤ Props.ModArith.EffectiveAmount q Y := by
    unfold Props.ModArith.EffectiveAmount
    split <;> omega
  exact ⟨e1.2 (Or.inr this), e2.2 (Or.inr this)⟩

theorem specs_lt {q X Y : Nat} (hq : Good q) (hX : X < q) : shlSpec q X Y < q ∧ shrSpec q X Y < q := by
  have d : ∀ k, X / 2 ^ k < q := fun k => lt_of_le_of_lt (Nat.div_le_self _ _) hX
  have m : ∀ k, X * 2 ^ k % 2 ^ qbits q % q < q := fun k => Nat.mod_lt _ hq.pos
  unfold shlSpec shrSpec
  have := hq.pos
  constructor <;> (split; · first | exact d _ | exact m _) <;> (split; · first | exact d _ | exact m _) <;> omega

section
variable {q : Nat} (hq : Good q) {a b : El} {x y : Int} (ha : Denotes q a x) (hb : Denotes q b y) (r : El)
include hq ha hb

theorem cmp_case {o : Infix} {v : Int}
    (ho : o = .lesser ∨ o = .lesserEq ∨ o = .greater ∨ o = .greaterEq ∨ o = .eq ∨ o = .notEq)
    (h : (prime q).inf o x y = some v) : ∃ e, infixOp q o r a b = some e ∧ Denotes q e v := by
  obtain ⟨ia, x0, x1⟩ := (denotes_iff hq).1 ha
  obtain ⟨ib, y0, y1⟩ := (denotes_iff hq).1 hb
  obtain ⟨c1, c2, c3, c4, c5, c6⟩ := Props.ModArith.C06_comparisons x y q _ _ (one_lt hq) (signed hq x0 x1) (signed hq y0 y1)
  have hlt := rlt_eq hq r ia ib x0 x1 y0 y1
  have hgt := rgt_eq hq r ia ib x0 x1 y0 y1
  have heq := req_eq hq r ia ib x0 x1 y0 y1
  have inj : sg q x = sg q y ↔ x = y := by
    constructor
    · intro h; unfold sg at h; split at h <;> split at h <;> omega
    · rintro rfl; rfl
  rcases ho with rfl | rfl | rfl | rfl | rfl | rfl <;> simp only [prime, Option.some.injEq] at h
  · refine ⟨_, rfl, finB hq r (sg q x < sg q y) hlt ?_⟩
    rw [← h, c1]
  · refine ⟨_, rfl, finB hq r (sg q x ≤ sg q y) (by rw [hgt, ← decide_not, decide_eq_decide, not_lt]) ?_⟩
    rw [← h, c2]
  · refine ⟨_, rfl, finB hq r (sg q y < sg q x) hgt ?_⟩
    rw [← h, c3]
  · refine ⟨_, rfl, finB hq r (sg q y ≤ sg q x) (by rw [hlt, ← decide_not, decide_eq_decide, not_lt]) ?_⟩
    rw [← h, c4]
  · refine ⟨_, rfl, finB hq r (x = y) heq ?_⟩
    rw [← h, c5]; simp only [inj]
  · refine ⟨_, rfl, finB hq r (x ≠ y) (by rw [heq]; simp) ?_⟩
    rw [← h, c6]; simp only [ne_eq, inj]

theorem logic_case {o : Infix} {v : Int} (ho : o = .boolOr ∨ o = .boolAnd)
    (h : (prime q).inf o x y = some v) : ∃ e, infixOp q o r a b = some e ∧ Denotes q e v := by
  obtain ⟨ia, x0, x1⟩ := (denotes_iff hq).1 ha
  obtain ⟨ib, y0, y1⟩ := (denotes_iff hq).1 hb
  have ta := isTrue_eq hq ia x0 x1
  have tb := isTrue_eq hq ib y0 y1
  rcases ho with rfl | rfl <;>
    simp only [prime, Option.some.injEq, ModArith.boolOr, ModArith.boolAnd, norm_of hq x0 x1, norm_of hq y0 y1] at h
  · refine ⟨_, rfl, finB hq r (x ≠ 0 ∨ y ≠ 0) (by rw [ta, tb]; simp) ?_⟩
    rw [← h]
    by_cases h1 : x = 0 <;> by_cases h2 : y = 0 <;> simp [h1, h2]
  · refine ⟨_, rfl, finB hq r (x ≠ 0 ∧ y ≠ 0) (by rw [ta, tb]; simp) ?_⟩
    rw [← h]
    by_cases h1 : x = 0 <;> by_cases h2 : y = 0 <;> simp [h1, h2]

theorem bits_case {o : Infix} {v : Int} (ho : o = .bitOr ∨ o = .bitAnd ∨ o = .bitXor)
    (h : (prime q).inf o x y = some v) : ∃ e, infixOp q o r a b = some e ∧ Denotes q e v := by
  obtain ⟨ia, x0, x1⟩ := (denotes_iff hq).1 ha
  obtain ⟨ib, y0, y1⟩ := (denotes_iff hq).1 hb
  obtain ⟨X, rfl⟩ := Int.eq_ofNat_of_zero_le x0
  obtain ⟨Y, rfl⟩ := Int.eq_ofNat_of_zero_le y0
  have hX : X < q := by exact_mod_cast x1
  have hY : Y < q := by exact_mod_cast y1
  rcases ho with rfl | rfl | rfl <;> simp only [prime, Option.some.injEq] at h
  · refine ⟨_, rfl, fin hq ?_ (is_bit2 hq (fun u v hu hv => rawOr_eq hq hu hv) Nat.or_comm
      (fun u v hu hv => Nat.or_lt_two_pow hu hv) r ia ib hX hY)⟩
    rw [← h, ← ModArith.modulus_eq_emod _ (pos hq)]; rfl
  · refine ⟨_, rfl, fin hq ?_ (is_bit2 hq (fun u v hu hv => rawAnd_eq hq hu hv) Nat.and_comm
      (fun u v hu hv => lt_of_le_of_lt Nat.and_le_left hu) r ia ib hX hY)⟩
    rw [← h, ← ModArith.modulus_eq_emod _ (pos hq)]; rfl
  · refine ⟨_, rfl, fin hq ?_ (is_bit2 hq (fun u v hu hv => rawXor_eq hq hu hv) Nat.xor_comm
      (fun u v hu hv => Nat.xor_lt_two_pow hu hv) r ia ib hX hY)⟩
    rw [← h, ← ModArith.modulus_eq_emod _ (pos hq)]; rfl

theorem shift_case {o : Infix} {v : Int} (ho : o = .shiftL ∨ o = .shiftR)
    (h : (prime q).inf o x y = some v) : ∃ e, infixOp q o r a b = some e ∧ Denotes q e v := by
  obtain ⟨ia, x0, x1⟩ := (denotes_iff hq).1 ha
  obtain ⟨ib, y0, y1⟩ := (denotes_iff hq).1 hb
  obtain ⟨X, rfl⟩ := Int.eq_ofNat_of_zero_le x0
  obtain ⟨Y, rfl⟩ := Int.eq_ofNat_of_zero_le y0
  have hX : X < q := by exact_mod_cast x1
  have hY : Y < q := by exact_mod_cast y1
  obtain ⟨s1, _⟩ := shifts hq hX hY
  have lts := specs_lt (Y := Y) hq hX
  by_cases hc : Y < 2 ^ 64 ∨ q - Y < 2 ^ 64
  · obtain ⟨e1, e2⟩ := s1 hc
    rcases ho with rfl | rfl
    · rw [prime_shiftL] at h
      change res (ModArith.shiftL (X : Int) (Y : Int) q) = _ at h
      rw [e1] at h
      simp only [res, Option.some.injEq] at h
      exact ⟨_, rfl, finN hq h.symm lts.1 (is_shl hq r ia ib hX hY)⟩
    · rw [prime_shiftR] at h
      change res (ModArith.shiftR (X : Int) (Y : Int) q) = _ at h
      rw [e2] at h
      simp only [res, Option.some.injEq] at h
      exact ⟨_, rfl, finN hq h.symm lts.2 (is_shr hq r ia ib hX hY)⟩
  · obtain ⟨e1, e2⟩ := shift_huge hq hY X hc
    rcases ho with rfl | rfl
    · rw [prime_shiftL] at h
      change res (ModArith.shiftL (X : Int) (Y : Int) q) = _ at h
      rw [e1] at h; cases h
    · rw [prime_shiftR] at h
      change res (ModArith.shiftR (X : Int) (Y : Int) q) = _ at h
      rw [e2] at h; cases h

theorem mpz_case {o : Infix} {v : Int} (ho : o = .div ∨ o = .intDiv ∨ o = .mod ∨ o = .pow)
    (h : (prime q).inf o x y = some v) : ∃ e, infixOp q o r a b = some e ∧ Denotes q e v := by
  obtain ⟨ia, x0, x1⟩ := (denotes_iff hq).1 ha
  obtain ⟨ib, y0, y1⟩ := (denotes_iff hq).1 hb
  have ma := toMpz_eq hq r ia x0 x1
  have mb := toMpz_eq hq r ib y0 y1
  rcases ho with rfl | rfl | rfl | rfl
  · rw [prime_div] at h
    unfold ModArith.div at h
    cases hi : ModArith.modInverse y q with
    | none => rw [hi] at h; simp [res] at h
    | some i =>
      rw [hi] at h
      simp only [res, Option.some.injEq] at h
      obtain ⟨i0, i1⟩ := Verif.Gold.modInverse_range (pos hq) hi
      refine ⟨mul q r a (fromMpz r i), by simp only [infixOp, div, inv, mb, hi, Option.map_some], fin hq ?_
        (is_mul hq r ia (is_fromMpz r i0 i1))⟩
      rw [← h, ← ModArith.modulus_eq_emod _ (pos hq)]; rfl
  · obtain ⟨X, rfl⟩ := Int.eq_ofNat_of_zero_le x0
    obtain ⟨Y, rfl⟩ := Int.eq_ofNat_of_zero_le y0
    rw [Gold.prime_intDiv] at h
    change res (ModArith.idiv (X : Int) (Y : Int) q) = _ at h
    rw [Gold.idiv_of x1 y1] at h
    by_cases hb0 : Y = 0
    · rw [if_pos hb0] at h; simp [res] at h
    · rw [if_neg hb0] at h
      simp only [res, Option.some.injEq] at h
      have hlt : X / Y < q := lt_of_le_of_lt (Nat.div_le_self _ _) (by exact_mod_cast x1)
      have hv0 : 0 ≤ v := h ▸ Int.natCast_nonneg _
      have hv1 : v < q := h ▸ Int.ofNat_lt.2 hlt
      refine ⟨fromMpz r v, ?_, den_mpz hq r hv0 hv1⟩
      have hy : ¬ (Y : Int) = 0 := by omega
      have hz : (X : Int) / (Y : Int) = v := by rw [← h]; push_cast; rfl
      change Verif.Frg.idiv q r a b = _
      unfold Verif.Frg.idiv
      rw [ma, mb]
      change (if (Y : Int) = 0 then none else some (fromMpz r ((X : Int) / (Y : Int)))) = _
      rw [if_neg hy, hz]
  · obtain ⟨X, rfl⟩ := Int.eq_ofNat_of_zero_le x0
    obtain ⟨Y, rfl⟩ := Int.eq_ofNat_of_zero_le y0
    rw [Gold.prime_mod] at h
    change res (ModArith.modOp (X : Int) (Y : Int) q) = _ at h
    rw [Gold.modOp_of x1 y1] at h
    by_cases hb0 : Y = 0
    · rw [if_pos hb0] at h; simp [res] at h
    · rw [if_neg hb0] at h
      simp only [res, Option.some.injEq] at h
      have hlt : X % Y < q := lt_of_le_of_lt (Nat.mod_le _ _) (by exact_mod_cast x1)
      have hv0 : 0 ≤ v := h ▸ Int.natCast_nonneg _
      have hv1 : v < q := h ▸ Int.ofNat_lt.2 hlt
      refine ⟨fromMpz r v, ?_, den_mpz hq r hv0 hv1⟩
      have hy : ¬ (Y : Int) = 0 := by omega
      have hz : (X : Int) % (Y : Int) = v := by rw [← h]; push_cast; rfl
      change Verif.Frg.mod q r a b = _
      unfold Verif.Frg.mod
      rw [ma, mb]
      change (if (Y : Int) = 0 then none else some (fromMpz r ((X : Int) % (Y : Int)))) = _
      rw [if_neg hy, hz]
  · obtain ⟨Y, rfl⟩ := Int.eq_ofNat_of_zero_le y0
    rw [prime_pow] at h
    obtain ⟨p, h1, ⟨h2, h3⟩, h4⟩ := Props.ModArith.C05_pow x Y q hq.pos
    change res (ModArith.pow x (Y : Int) q) = _ at h
    rw [h1] at h
    simp only [res, Option.some.injEq] at h
    subst h
    have e : p = x ^ Y % q := by
      have := (ZMod.intCast_eq_intCast_iff p (x ^ Y) q).1 (by push_cast; exact h4)
      unfold Int.ModEq at this
      rwa [Int.emod_eq_of_lt h2 h3] at this
    refine ⟨fromMpz r p, ?_, (denotes_iff hq).2 ⟨is_fromMpz r h2 h3, h2, h3⟩⟩
    simp only [infixOp, pow, ma, mb, Int.ofNat_eq_natCast, Int.toNat_natCast, ← e]

/-- Operators with two operands: where the compiler's arithmetic has a result, the program has an element for the same number, whatever
forms the operands are in and whatever the result held before. -/
theorem C81_infix (o : Infix) (v : Int) (h : (prime q).inf o x y = some v) :
    ∃ e, infixOp q o r a b = some e ∧ Denotes q e v := by
  obtain ⟨ia, x0, x1⟩ := (denotes_iff hq).1 ha
  obtain ⟨ib, y0, y1⟩ := (denotes_iff hq).1 hb
  cases o with
  | mul =>
    simp only [prime, Option.some.injEq] at h
    exact ⟨_, rfl, fin hq (by rw [← h, ← ModArith.modulus_eq_emod _ (pos hq)]; rfl) (is_mul hq r ia ib)⟩
  | add =>
    simp only [prime, Option.some.injEq] at h
    exact ⟨_, rfl, fin hq (by rw [← h, ← ModArith.modulus_eq_emod _ (pos hq)]; rfl) (is_add hq r ia ib)⟩
  | sub =>
    simp only [prime, Option.some.injEq] at h
    exact ⟨_, rfl, fin hq (by rw [← h, ← ModArith.modulus_eq_emod _ (pos hq)]; rfl) (is_sub hq r ia ib)⟩
  | div => exact mpz_case hq ha hb r (by simp) h
  | pow => exact mpz_case hq ha hb r (by simp) h
  | intDiv => exact mpz_case hq ha hb r (by simp) h
  | mod => exact mpz_case hq ha hb r (by simp) h
  | shiftL => exact shift_case hq ha hb r (by simp) h
  | shiftR => exact shift_case hq ha hb r (by simp) h
  | lesserEq => exact cmp_case hq ha hb r (by simp) h
  | greaterEq => exact cmp_case hq ha hb r (by simp) h
  | lesser => exact cmp_case hq ha hb r (by simp) h
  | greater => exact cmp_case hq ha hb r (by simp) h
  | eq => exact cmp_case hq ha hb r (by simp) h
  | notEq => exact cmp_case hq ha hb r (by simp) h
  | boolOr => exact logic_case hq ha hb r (by simp) h
  | boolAnd => exact logic_case hq ha hb r (by simp) h
  | bitOr => exact bits_case hq ha hb r (by simp) h
  | bitAnd => exact bits_case hq ha hb r (by simp) h
  | bitXor => exact bits_case hq ha hb r (by simp) h

/-- Where the compiler's arithmetic has no result, the program has none either, except that a shift by `2^64` or more, which the
compiler refuses, is `0` at run time. -/
theorem C81_undefined (o : Infix) (h : (prime q).inf o x y = none) :
    (infixOp q o r a b = none ∧ (o = .div ∨ o = .intDiv ∨ o = .mod)) ∨
    ((∃ e, infixOp q o r a b = some e ∧ Denotes q e 0) ∧ (o = .shiftL ∨ o = .shiftR) ∧ 2 ^ 64 ≤ y ∧ 2 ^ 64 ≤ q - y) := by
  obtain ⟨ia, x0, x1⟩ := (denotes_iff hq).1 ha
  obtain ⟨ib, y0, y1⟩ := (denotes_iff hq).1 hb
  have ma := toMpz_eq hq r ia x0 x1
  have mb := toMpz_eq hq r ib y0 y1
  have sh : o = .shiftL ∨ o = .shiftR →
      (∃ e, infixOp q o r a b = some e ∧ Denotes q e 0) ∧ (o = .shiftL ∨ o = .shiftR) ∧ 2 ^ 64 ≤ y ∧ 2 ^ 64 ≤ q - y := by
    intro ho
    obtain ⟨X, rfl⟩ := Int.eq_ofNat_of_zero_le x0
    obtain ⟨Y, rfl⟩ := Int.eq_ofNat_of_zero_le y0
    have hX : X < q := by exact_mod_cast x1
    have hY : Y < q := by exact_mod_cast y1
    obtain ⟨s1, s2⟩ := shifts hq hX hY
    by_cases hc : Y < 2 ^ 64 ∨ q - Y < 2 ^ 64
    · exfalso
      obtain ⟨e1, e2⟩ := s1 hc
      rcases ho with rfl | rfl
      · rw [prime_shiftL] at h
        change res (ModArith.shiftL (X : Int) (Y : Int) q) = _ at h
        rw [e1] at h; cases h
      · rw [prime_shiftR] at h
        change res (ModArith.shiftR (X : Int) (Y : Int) q) = _ at h
        rw [e2] at h; cases h
    · obtain ⟨z1, z2⟩ := s2 hc
      refine ⟨?_, ho, by omega, by omega⟩
      rcases ho with rfl | rfl
      · exact ⟨_, rfl, finN hq (n := 0) rfl hq.pos (by have := is_shl hq r ia ib hX hY; rwa [z1] at this)⟩
      · exact ⟨_, rfl, finN hq (n := 0) rfl hq.pos (by have := is_shr hq r ia ib hX hY; rwa [z2] at this)⟩
  cases o with
  | div =>
    rw [prime_div] at h
    unfold ModArith.div at h
    cases hi : ModArith.modInverse y q with
    | none => exact Or.inl ⟨by simp only [infixOp, div, inv, mb, hi, Option.map_none], by simp⟩
    | some i => rw [hi] at h; simp [res] at h
  | intDiv =>
    obtain ⟨X, rfl⟩ := Int.eq_ofNat_of_zero_le x0
    obtain ⟨Y, rfl⟩ := Int.eq_ofNat_of_zero_le y0
    rw [Gold.prime_intDiv] at h
    change res (ModArith.idiv (X : Int) (Y : Int) q) = _ at h
    rw [Gold.idiv_of x1 y1] at h
    by_cases hb0 : Y = 0
    · exact Or.inl ⟨by simp only [infixOp, idiv, mb, hb0]; rfl, by simp⟩
    · rw [if_neg hb0] at h; simp [res] at h
  | mod =>
    obtain ⟨X, rfl⟩ := Int.eq_ofNat_of_zero_le x0
    obtain ⟨Y, rfl⟩ := Int.eq_ofNat_of_zero_le y0
    rw [Gold.prime_mod] at h
    change res (ModArith.modOp (X : Int) (Y : Int) q) = _ at h
    rw [Gold.modOp_of x1 y1] at h
    by_cases hb0 : Y = 0
    · exact Or.inl ⟨by simp only [infixOp, mod, mb, hb0]; rfl, by simp⟩
    · rw [if_neg hb0] at h; simp [res] at h
  | pow =>
    obtain ⟨Y, rfl⟩ := Int.eq_ofNat_of_zero_le y0
    rw [prime_pow] at h
    obtain ⟨p, h1, _, _⟩ := Props.ModArith.C05_pow x Y q hq.pos
    change res (ModArith.pow x (Y : Int) q) = _ at h
    rw [h1] at h; simp [res] at h
  | shiftL => exact Or.inr (sh (by simp))
  | shiftR => exact Or.inr (sh (by simp))
  | _ => simp [prime] at h

omit hb

/-- Operators with one operand. -/
theorem C81_prefix (o : Prefix) (v : Int) (h : (prime q).pre o x = some v) : Denotes q (prefixOp q o r a) v := by
  obtain ⟨ia, x0, x1⟩ := (denotes_iff hq).1 ha
  have hp := pos hq
  cases o with
  | sub =>
    simp only [prime, Option.some.injEq] at h
    refine fin hq (z := -x) ?_ (is_neg hq r ia)
    rw [← h]
    unfold ModArith.prefixSub ModArith.mul
    rw [ModArith.modulus_eq_emod _ hp]
    congr 1; ring
  | boolNot =>
    simp only [prime, Option.some.injEq, ModArith.not, norm_of hq x0 x1] at h
    refine finB hq r (x = 0) (isZero_eq hq ia x0 x1) ?_
    rw [← h]
    by_cases h1 : x = 0 <;> simp [h1]
  | complement =>
    obtain ⟨X, rfl⟩ := Int.eq_ofNat_of_zero_le x0
    have hX : X < q := by exact_mod_cast x1
    simp only [prime, Option.some.injEq] at h
    rw [ModArith.complement_eq x0 hp (bits hq).1 (bits hq).2] at h
    have hlt := lt_qbits q
    refine fin hq ?_ (is_bnot hq r ia hX)
    rw [← h]
    congr 1
    have h1 : ((2 ^ qbits q - 1 - X : Nat) : Int) = 2 ^ qbits q - 1 - X := by
      have h3 : (1 : Nat) ≤ 2 ^ qbits q := Nat.one_le_two_pow
      rw [Nat.sub_sub, Nat.cast_sub (by omega)]
      push_cast; ring
    rw [h1, Int.emod_eq_of_lt (by omega) (by exact_mod_cast lt_trans hX hlt)]

/-- `if`, `while`, `assert`: the truth value. -/
theorem C81_truthy : Verif.Frg.isTrue a = (prime q).truthy x := by
  obtain ⟨ia, x0, x1⟩ := (denotes_iff hq).1 ha
  rw [isTrue_eq hq ia x0 x1]; rfl

/-- The number that is written for an element, in the witness file, in the log and in error messages. -/
theorem C81_print : num q r a = x ∧ toMpz q r a = x ∧ ((toLongNormal q r a).raw : Int) = x := by
  obtain ⟨ia, x0, x1⟩ := (denotes_iff hq).1 ha
  exact ⟨num_eq hq r ia x0 x1, toMpz_eq hq r ia x0 x1, (toLongNormal_raw hq r ia).1.eq x0 x1⟩

end

/-- Reading the digits of an input: the element is for the number reduced, so inputs that are negative or not below the prime are read
as their residues. -/
theorem C81_read {q : Nat} (hq : Good q) (r : El) (z : Int) : Denotes q (ofNum q r z) (z % q) := by
  have hp := pos hq
  refine (denotes_iff hq).2 ⟨is_fromMpz r (Int.emod_nonneg _ (by omega)) (Int.emod_lt_of_pos _ hp),
    Int.emod_nonneg _ (by omega), Int.emod_lt_of_pos _ hp⟩

/-- An element is for one number only. -/
theorem C81_unique {q : Nat} (hq : Good q) {e : El} {v w : Int} (h1 : Denotes q e v) (h2 : Denotes q e w) : v = w := by
  rw [← (C81_print hq h1 e).1, (C81_print hq h2 e).1]

/-- The seven primes for which the template is used (`/repo/program_structure/src/utils/constants.rs:3-14`). -/
theorem C81_primes :
    Good 21888242871839275222246405745257275088548364400416034343698204186575808495617 ∧
    Good 52435875175126190479447740508185965837690552500527637822603658699938581184513 ∧
    Good 21888242871839275222246405745257275088696311157297823662689037894645226208583 ∧
    Good 28948022309329048855892746252171976963363056481941560715954676764349967630337 ∧
    Good 28948022309329048855892746252171976963363056481941647379679742748393362948097 ∧
    Good 115792089210356248762697446949407573530086143415290314195533631308867097853951 ∧
    Good 8444461749428370424248824938781546531375899335154063827935233455917409239041 := by
  refine ⟨⟨?_, ?_, ?_, ?_⟩, ⟨?_, ?_, ?_, ?_⟩, ⟨?_, ?_, ?_, ?_⟩, ⟨?_, ?_, ?_, ?_⟩, ⟨?_, ?_, ?_, ?_⟩, ⟨?_, ?_, ?_, ?_⟩,
    ⟨?_, ?_, ?_, ?_⟩⟩ <;> decide +kernel

/-- The prime of `bn128`. -/
abbrev bn : Nat := 21888242871839275222246405745257275088548364400416034343698204186575808495617

/-- Operands in all forms: `-5` short, `-7` in Montgomery form, `2^200 + 1` long. -/
def m5 : El := ⟨-5, false, false, 0⟩
def m7 : El := ⟨0, true, true, ((bn - 7) * R bn) % bn⟩
def big : El := ⟨0, true, false, 2 ^ 200 + 1⟩

example : Denotes bn m5 (bn - 5) ∧ Denotes bn m7 (bn - 7) ∧ Denotes bn big (2 ^ 200 + 1) := by
  unfold Denotes
  decide +kernel

example :
    (infixOp bn .mul big m5 m7).map (num bn m5) = some 35 ∧
    (infixOp bn .sub m7 m5 big).map (num bn m5) = some ((bn : Int) - 2 ^ 200 - 6) ∧
    (infixOp bn .add m7 m7 big).map (num bn m5) = some (2 ^ 200 - 6) ∧
    (infixOp bn .lesser m5 m7 m5).map (num bn m5) = some 1 ∧
    (infixOp bn .div m5 m7 big).map (fun e => num bn m5 (mul bn m5 e big)) = some ((bn : Int) - 7) ∧
    (infixOp bn .shiftR m5 big m5).map (num bn m5) = some (2 ^ 205 + 2 ^ 5) ∧
    (infixOp bn .bitAnd m5 m5 big).map (num bn m5) = some (((bn - 5) &&& (2 ^ 200 + 1) : Nat) : Int) ∧
    infixOp bn .intDiv m5 m7 ⟨0, false, false, 0⟩ = none := by
  decide +kernel

end Verif.Props.Frg
