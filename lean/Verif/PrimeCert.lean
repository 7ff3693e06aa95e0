import Mathlib.NumberTheory.LucasPrimality
import Mathlib.Tactic.NormNum.Prime

/-!
# Certificates of primality (C100)

A number `n` with a base of order `n - 1` is prime.  `check` decides that from the factors of `n - 1`; the certificates of the
eight numbers of program_structure/src/utils/constants.rs:3-13 follow.  Nothing here models code: the file is part of the proof.
-/

namespace Verif.PrimeCert

/-- `acc * b ^ e` modulo `n`, by squaring, with at most `f` steps. -/
def powMod (n : Nat) : Nat → Nat → Nat → Nat → Nat
  | 0, _, _, acc => acc
  | f + 1, b, e, acc => powMod n f (b * b % n) (e / 2) (if e % 2 = 1 then acc * b % n else acc)

theorem powMod_spec (n : Nat) : ∀ (f b e acc : Nat), e < 2 ^ f → ((powMod n f b e acc : Nat) : ZMod n) = acc * (b : ZMod n) ^ e
  | 0, b, e, acc, h => by
    have : e = 0 := by simpa using h
    subst this
    simp [powMod]
  | f + 1, b, e, acc, h => by
    have he : e / 2 < 2 ^ f := by
      rw [Nat.pow_succ] at h
      omega
    rw [powMod, powMod_spec n f _ _ _ he]
    have hs : ((b * b % n : Nat) : ZMod n) = (b : ZMod n) ^ 2 := by
      rw [ZMod.natCast_mod]
      push_cast
      ring
    rw [hs, ← pow_mul]
    split
    · next h1 =>
      have : e = 1 + 2 * (e / 2) := by omega
      conv_rhs => rw [this, pow_add, pow_one, ← mul_assoc]
      rw [ZMod.natCast_mod]
      push_cast
      rfl
    · next h1 =>
      have : e = 2 * (e / 2) := by omega
      conv_rhs => rw [this]

/-- The certificate: the factors make up `n - 1`, and `a` has order `n - 1`. -/
def check (n a : Nat) (fs : List Nat) : Bool :=
  decide (1 < n) && decide (n - 1 < 2 ^ 256) && decide (fs.prod = n - 1) && decide (powMod n 256 a (n - 1) 1 % n = 1) &&
    fs.all fun q => decide (powMod n 256 a ((n - 1) / q) 1 % n ≠ 1)

theorem prime_of_check {n : Nat} (a : Nat) (fs : List Nat) (hf : ∀ q ∈ fs, q.Prime) (h : check n a fs = true) : n.Prime := by
  simp only [check, Bool.and_eq_true, decide_eq_true_eq, List.all_eq_true] at h
  obtain ⟨⟨⟨⟨h1, h2⟩, h3⟩, h4⟩, h5⟩ := h
  have one : ∀ m : Nat, m % n = 1 ↔ ((m : Nat) : ZMod n) = 1 := fun m => by
    have := ZMod.natCast_eq_natCast_iff' m 1 n
    rw [Nat.mod_eq_of_lt h1, Nat.cast_one] at this
    exact this.symm
  refine lucas_primality n (a : ZMod n) ?_ fun q hq hd hp => ?_
  · have := powMod_spec n 256 a (n - 1) 1 h2
    rw [Nat.cast_one, one_mul] at this
    rw [← this]
    exact (one _).mp h4
  · rw [← h3] at hd
    obtain ⟨r, hr, hqr⟩ := (Prime.dvd_prod_iff hq.prime).mp hd
    obtain rfl := (Nat.prime_dvd_prime_iff_eq hq (hf r hr)).mp hqr
    refine h5 _ hr ((one _).mpr ?_)
    have := powMod_spec n 256 a ((n - 1) / q) 1 (Nat.lt_of_le_of_lt (Nat.div_le_self _ _) h2)
    rw [Nat.cast_one, one_mul] at this
    rw [this]
    exact hp

theorem p2 : Nat.Prime 2 := by norm_num
theorem p3 : Nat.Prime 3 := by norm_num
theorem p5 : Nat.Prime 5 := by norm_num
theorem p7 : Nat.Prime 7 := by norm_num
theorem p11 : Nat.Prime 11 := by norm_num
theorem p13 : Nat.Prime 13 := by norm_num
theorem p17 : Nat.Prime 17 := by norm_num
theorem p19 : Nat.Prime 19 := by norm_num
theorem p23 : Nat.Prime 23 := by norm_num
theorem p29 : Nat.Prime 29 := by norm_num
theorem p31 : Nat.Prime 31 := by norm_num
theorem p37 : Nat.Prime 37 := by norm_num
theorem p41 : Nat.Prime 41 := by norm_num
theorem p43 : Nat.Prime 43 := by norm_num
theorem p47 : Nat.Prime 47 := by norm_num
theorem p53 : Nat.Prime 53 := by norm_num
theorem p59 : Nat.Prime 59 := by norm_num
theorem p67 : Nat.Prime 67 := by norm_num
theorem p71 : Nat.Prime 71 := by norm_num
theorem p73 : Nat.Prime 73 := by norm_num
theorem p79 : Nat.Prime 79 := by norm_num
theorem p83 : Nat.Prime 83 := by norm_num
theorem p89 : Nat.Prime 89 := by norm_num
theorem p97 : Nat.Prime 97 := by norm_num
theorem p107 : Nat.Prime 107 := by norm_num
theorem p109 : Nat.Prime 109 := by norm_num
theorem p167 : Nat.Prime 167 := by norm_num
theorem p173 : Nat.Prime 173 := by norm_num
theorem p197 : Nat.Prime 197 := by norm_num
theorem p223 : Nat.Prime 223 := by norm_num
theorem p229 : Nat.Prime 229 := by norm_num
theorem p233 : Nat.Prime 233 := by norm_num
theorem p241 : Nat.Prime 241 := by norm_num
theorem p257 : Nat.Prime 257 := by norm_num
theorem p271 : Nat.Prime 271 := by norm_num
theorem p311 : Nat.Prime 311 := by norm_num
theorem p313 : Nat.Prime 313 := by norm_num
theorem p359 : Nat.Prime 359 := by norm_num
theorem p379 : Nat.Prime 379 := by norm_num
theorem p449 : Nat.Prime 449 := by norm_num
theorem p463 : Nat.Prime 463 := by norm_num
theorem p499 : Nat.Prime 499 := by norm_num
theorem p509 : Nat.Prime 509 := by norm_num
theorem p523 : Nat.Prime 523 := by norm_num
theorem p641 : Nat.Prime 641 := by norm_num
theorem p661 : Nat.Prime 661 := by norm_num
theorem p727 : Nat.Prime 727 := by norm_num
theorem p757 : Nat.Prime 757 := by norm_num
theorem p823 : Nat.Prime 823 := by norm_num
theorem p827 : Nat.Prime 827 := by norm_num
theorem p829 : Nat.Prime 829 := by norm_num
theorem p853 : Nat.Prime 853 := by norm_num
theorem p911 : Nat.Prime 911 := by norm_num
theorem p977 : Nat.Prime 977 := by norm_num
theorem p983 : Nat.Prime 983 := by norm_num
theorem p1231 : Nat.Prime 1231 := by norm_num
theorem p1381 : Nat.Prime 1381 := by norm_num
theorem p1531 : Nat.Prime 1531 := by norm_num
theorem p1607 : Nat.Prime 1607 := by norm_num
theorem p1637 : Nat.Prime 1637 := by norm_num
theorem p1709 : Nat.Prime 1709 := by norm_num
theorem p1973 : Nat.Prime 1973 := by norm_num
theorem p2221 : Nat.Prime 2221 := by norm_num
theorem p2411 : Nat.Prime 2411 := by norm_num
theorem p2531 : Nat.Prime 2531 := by norm_num
theorem p2557 : Nat.Prime 2557 := by norm_num
theorem p3037 : Nat.Prime 3037 := by norm_num
theorem p3511 : Nat.Prime 3511 := by norm_num
theorem p3557 : Nat.Prime 3557 := by norm_num
theorem p3677 : Nat.Prime 3677 := by norm_num
theorem p3691 : Nat.Prime 3691 := by norm_num
theorem p3767 : Nat.Prime 3767 := by norm_num
theorem p3769 : Nat.Prime 3769 := by norm_num
theorem p4349 : Nat.Prime 4349 := by norm_num
theorem p4999 : Nat.Prime 4999 := by norm_num
theorem p5501 : Nat.Prime 5501 := by norm_num
theorem p6091 : Nat.Prime 6091 := by norm_num
theorem p6229 : Nat.Prime 6229 := by norm_num

theorem p11003 : Nat.Prime 11003 :=
  prime_of_check 2 [2, 5501] (by simp only [List.forall_mem_cons]; exact ⟨p2, p5501, List.forall_mem_nil _⟩) (by decide +kernel)
theorem p237073 : Nat.Prime 237073 :=
  prime_of_check 15 [2, 2, 2, 2, 3, 11, 449] (by simp only [List.forall_mem_cons]; exact ⟨p2, p2, p2, p2, p3, p11, p449, List.forall_mem_nil _⟩) (by decide +kernel)
theorem p405928799 : Nat.Prime 405928799 :=
  prime_of_check 22 [2, 11, 3691, 4999] (by simp only [List.forall_mem_cons]; exact ⟨p2, p11, p3691, p4999, List.forall_mem_nil _⟩) (by decide +kernel)
theorem p93001 : Nat.Prime 93001 :=
  prime_of_check 14 [2, 2, 2, 3, 5, 5, 5, 31] (by simp only [List.forall_mem_cons]; exact ⟨p2, p2, p2, p3, p5, p5, p5, p31, List.forall_mem_nil _⟩) (by decide +kernel)
theorem p12048837557 : Nat.Prime 12048837557 :=
  prime_of_check 2 [2, 2, 7, 7, 661, 93001] (by simp only [List.forall_mem_cons]; exact ⟨p2, p2, p7, p7, p661, p93001, List.forall_mem_nil _⟩) (by decide +kernel)
theorem p5156902474397 : Nat.Prime 5156902474397 :=
  prime_of_check 2 [2, 2, 107, 12048837557] (by simp only [List.forall_mem_cons]; exact ⟨p2, p2, p107, p12048837557, List.forall_mem_nil _⟩) (by decide +kernel)
theorem p1670836401704629 : Nat.Prime 1670836401704629 :=
  prime_of_check 2 [2, 2, 3, 3, 3, 3, 5156902474397] (by simp only [List.forall_mem_cons]; exact ⟨p2, p2, p3, p3, p3, p3, p5156902474397, List.forall_mem_nil _⟩) (by decide +kernel)
theorem p20963 : Nat.Prime 20963 :=
  prime_of_check 2 [2, 47, 223] (by simp only [List.forall_mem_cons]; exact ⟨p2, p47, p223, List.forall_mem_nil _⟩) (by decide +kernel)
theorem p41927 : Nat.Prime 41927 :=
  prime_of_check 5 [2, 20963] (by simp only [List.forall_mem_cons]; exact ⟨p2, p20963, List.forall_mem_nil _⟩) (by decide +kernel)
theorem p1593227 : Nat.Prime 1593227 :=
  prime_of_check 2 [2, 19, 41927] (by simp only [List.forall_mem_cons]; exact ⟨p2, p19, p41927, List.forall_mem_nil _⟩) (by decide +kernel)
theorem p639533339 : Nat.Prime 639533339 :=
  prime_of_check 2 [2, 229, 853, 1637] (by simp only [List.forall_mem_cons]; exact ⟨p2, p229, p853, p1637, List.forall_mem_nil _⟩) (by decide +kernel)
theorem p65865678001877903 : Nat.Prime 65865678001877903 :=
  prime_of_check 5 [2, 83, 379, 1637, 639533339] (by simp only [List.forall_mem_cons]; exact ⟨p2, p83, p379, p1637, p639533339, List.forall_mem_nil _⟩) (by decide +kernel)
theorem p13818364434197438864469338081 : Nat.Prime 13818364434197438864469338081 :=
  prime_of_check 3 [2, 2, 2, 2, 2, 5, 823, 1593227, 65865678001877903] (by simp only [List.forall_mem_cons]; exact ⟨p2, p2, p2, p2, p2, p5, p823, p1593227, p65865678001877903, List.forall_mem_nil _⟩) (by decide +kernel)
/-- constants.rs:3-4 `P_BN128`. -/
theorem bn128 : Nat.Prime 21888242871839275222246405745257275088548364400416034343698204186575808495617 :=
  prime_of_check 5 [2, 2, 2, 2, 2, 2, 2, 2, 2, 2, 2, 2, 2, 2, 2, 2, 2, 2, 2, 2, 2, 2, 2, 2, 2, 2, 2, 2, 3, 3, 13, 29, 983, 11003, 237073, 405928799, 1670836401704629, 13818364434197438864469338081] (by simp only [List.forall_mem_cons]; exact ⟨p2, p2, p2, p2, p2, p2, p2, p2, p2, p2, p2, p2, p2, p2, p2, p2, p2, p2, p2, p2, p2, p2, p2, p2, p2, p2, p2, p2, p3, p3, p13, p29, p983, p11003, p237073, p405928799, p1670836401704629, p13818364434197438864469338081, List.forall_mem_nil _⟩) (by decide +kernel)
theorem p10177 : Nat.Prime 10177 :=
  prime_of_check 7 [2, 2, 2, 2, 2, 2, 3, 53] (by simp only [List.forall_mem_cons]; exact ⟨p2, p2, p2, p2, p2, p2, p3, p53, List.forall_mem_nil _⟩) (by decide +kernel)
theorem p20921 : Nat.Prime 20921 :=
  prime_of_check 3 [2, 2, 2, 5, 523] (by simp only [List.forall_mem_cons]; exact ⟨p2, p2, p2, p5, p523, List.forall_mem_nil _⟩) (by decide +kernel)
theorem p125527 : Nat.Prime 125527 :=
  prime_of_check 5 [2, 3, 20921] (by simp only [List.forall_mem_cons]; exact ⟨p2, p3, p20921, List.forall_mem_nil _⟩) (by decide +kernel)
theorem p47737 : Nat.Prime 47737 :=
  prime_of_check 5 [2, 2, 2, 3, 3, 3, 13, 17] (by simp only [List.forall_mem_cons]; exact ⟨p2, p2, p2, p3, p3, p3, p13, p17, List.forall_mem_nil _⟩) (by decide +kernel)
theorem p859267 : Nat.Prime 859267 :=
  prime_of_check 2 [2, 3, 3, 47737] (by simp only [List.forall_mem_cons]; exact ⟨p2, p3, p3, p47737, List.forall_mem_nil _⟩) (by decide +kernel)
theorem p906349 : Nat.Prime 906349 :=
  prime_of_check 2 [2, 2, 3, 47, 1607] (by simp only [List.forall_mem_cons]; exact ⟨p2, p2, p3, p47, p1607, List.forall_mem_nil _⟩) (by decide +kernel)
theorem p2508409 : Nat.Prime 2508409 :=
  prime_of_check 11 [2, 2, 2, 3, 3, 3, 3, 7, 7, 79] (by simp only [List.forall_mem_cons]; exact ⟨p2, p2, p2, p3, p3, p3, p3, p7, p7, p79, List.forall_mem_nil _⟩) (by decide +kernel)
theorem p18329 : Nat.Prime 18329 :=
  prime_of_check 3 [2, 2, 2, 29, 79] (by simp only [List.forall_mem_cons]; exact ⟨p2, p2, p2, p29, p79, List.forall_mem_nil _⟩) (by decide +kernel)
theorem p2529403 : Nat.Prime 2529403 :=
  prime_of_check 2 [2, 3, 23, 18329] (by simp only [List.forall_mem_cons]; exact ⟨p2, p3, p23, p18329, List.forall_mem_nil _⟩) (by decide +kernel)
theorem p609743 : Nat.Prime 609743 :=
  prime_of_check 5 [2, 7, 97, 449] (by simp only [List.forall_mem_cons]; exact ⟨p2, p7, p97, p449, List.forall_mem_nil _⟩) (by decide +kernel)
theorem p52437899 : Nat.Prime 52437899 :=
  prime_of_check 2 [2, 43, 609743] (by simp only [List.forall_mem_cons]; exact ⟨p2, p43, p609743, List.forall_mem_nil _⟩) (by decide +kernel)
theorem p110573 : Nat.Prime 110573 :=
  prime_of_check 3 [2, 2, 7, 11, 359] (by simp only [List.forall_mem_cons]; exact ⟨p2, p2, p7, p11, p359, List.forall_mem_nil _⟩) (by decide +kernel)
theorem p2653753 : Nat.Prime 2653753 :=
  prime_of_check 5 [2, 2, 2, 3, 110573] (by simp only [List.forall_mem_cons]; exact ⟨p2, p2, p2, p3, p110573, List.forall_mem_nil _⟩) (by decide +kernel)
theorem p63690073 : Nat.Prime 63690073 :=
  prime_of_check 7 [2, 2, 2, 3, 2653753] (by simp only [List.forall_mem_cons]; exact ⟨p2, p2, p2, p3, p2653753, List.forall_mem_nil _⟩) (by decide +kernel)
theorem p254760293 : Nat.Prime 254760293 :=
  prime_of_check 2 [2, 2, 63690073] (by simp only [List.forall_mem_cons]; exact ⟨p2, p2, p63690073, List.forall_mem_nil _⟩) (by decide +kernel)
/-- constants.rs:5-6 `P_BLS12381`. -/
theorem bls12381 : Nat.Prime 52435875175126190479447740508185965837690552500527637822603658699938581184513 :=
  prime_of_check 7 [2, 2, 2, 2, 2, 2, 2, 2, 2, 2, 2, 2, 2, 2, 2, 2, 2, 2, 2, 2, 2, 2, 2, 2, 2, 2, 2, 2, 2, 2, 2, 2, 3, 11, 19, 10177, 125527, 859267, 906349, 906349, 2508409, 2529403, 52437899, 254760293, 254760293] (by simp only [List.forall_mem_cons]; exact ⟨p2, p2, p2, p2, p2, p2, p2, p2, p2, p2, p2, p2, p2, p2, p2, p2, p2, p2, p2, p2, p2, p2, p2, p2, p2, p2, p2, p2, p2, p2, p2, p2, p3, p11, p19, p10177, p125527, p859267, p906349, p906349, p2508409, p2529403, p52437899, p254760293, p254760293, List.forall_mem_nil _⟩) (by decide +kernel)
theorem p65537 : Nat.Prime 65537 :=
  prime_of_check 3 [2, 2, 2, 2, 2, 2, 2, 2, 2, 2, 2, 2, 2, 2, 2, 2] (by simp only [List.forall_mem_cons]; exact ⟨p2, p2, p2, p2, p2, p2, p2, p2, p2, p2, p2, p2, p2, p2, p2, p2, List.forall_mem_nil _⟩) (by decide +kernel)
/-- constants.rs:7-8 `P_GOLDILOCKS`. -/
theorem goldilocks : Nat.Prime 18446744069414584321 :=
  prime_of_check 7 [2, 2, 2, 2, 2, 2, 2, 2, 2, 2, 2, 2, 2, 2, 2, 2, 2, 2, 2, 2, 2, 2, 2, 2, 2, 2, 2, 2, 2, 2, 2, 2, 3, 5, 17, 257, 65537] (by simp only [List.forall_mem_cons]; exact ⟨p2, p2, p2, p2, p2, p2, p2, p2, p2, p2, p2, p2, p2, p2, p2, p2, p2, p2, p2, p2, p2, p2, p2, p2, p2, p2, p2, p2, p2, p2, p2, p2, p3, p5, p17, p257, p65537, List.forall_mem_nil _⟩) (by decide +kernel)
theorem p327599 : Nat.Prime 327599 :=
  prime_of_check 19 [2, 19, 37, 233] (by simp only [List.forall_mem_cons]; exact ⟨p2, p19, p37, p233, List.forall_mem_nil _⟩) (by decide +kernel)
theorem p11465965001 : Nat.Prime 11465965001 :=
  prime_of_check 3 [2, 2, 2, 5, 5, 5, 5, 7, 327599] (by simp only [List.forall_mem_cons]; exact ⟨p2, p2, p2, p5, p5, p5, p5, p7, p327599, List.forall_mem_nil _⟩) (by decide +kernel)
theorem p1853641 : Nat.Prime 1853641 :=
  prime_of_check 17 [2, 2, 2, 3, 3, 5, 19, 271] (by simp only [List.forall_mem_cons]; exact ⟨p2, p2, p2, p3, p3, p5, p19, p271, List.forall_mem_nil _⟩) (by decide +kernel)
theorem p4562087 : Nat.Prime 4562087 :=
  prime_of_check 5 [2, 17, 109, 1231] (by simp only [List.forall_mem_cons]; exact ⟨p2, p17, p109, p1231, List.forall_mem_nil _⟩) (by decide +kernel)
theorem p13327 : Nat.Prime 13327 :=
  prime_of_check 3 [2, 3, 2221] (by simp only [List.forall_mem_cons]; exact ⟨p2, p3, p2221, List.forall_mem_nil _⟩) (by decide +kernel)
theorem p173171039 : Nat.Prime 173171039 :=
  prime_of_check 13 [2, 73, 89, 13327] (by simp only [List.forall_mem_cons]; exact ⟨p2, p73, p89, p13327, List.forall_mem_nil _⟩) (by decide +kernel)
theorem p1263766531 : Nat.Prime 1263766531 :=
  prime_of_check 10 [2, 3, 5, 13, 911, 3557] (by simp only [List.forall_mem_cons]; exact ⟨p2, p3, p5, p13, p911, p3557, List.forall_mem_nil _⟩) (by decide +kernel)
theorem p35385462869 : Nat.Prime 35385462869 :=
  prime_of_check 2 [2, 2, 7, 1263766531] (by simp only [List.forall_mem_cons]; exact ⟨p2, p2, p7, p1263766531, List.forall_mem_nil _⟩) (by decide +kernel)
theorem p2480874801745591 : Nat.Prime 2480874801745591 :=
  prime_of_check 6 [2, 3, 3, 5, 19, 41, 35385462869] (by simp only [List.forall_mem_cons]; exact ⟨p2, p3, p3, p5, p19, p41, p35385462869, List.forall_mem_nil _⟩) (by decide +kernel)
theorem p13427688667394608761327070753331941386769 : Nat.Prime 13427688667394608761327070753331941386769 :=
  prime_of_check 17 [2, 2, 2, 2, 3, 7, 11, 1853641, 4562087, 173171039, 2480874801745591] (by simp only [List.forall_mem_cons]; exact ⟨p2, p2, p2, p2, p3, p7, p11, p1853641, p4562087, p173171039, p2480874801745591, List.forall_mem_nil _⟩) (by decide +kernel)
/-- constants.rs:9 `P_GRUMPKIN`. -/
theorem grumpkin : Nat.Prime 21888242871839275222246405745257275088696311157297823662689037894645226208583 :=
  prime_of_check 3 [2, 3, 3, 13, 29, 67, 229, 311, 983, 11003, 405928799, 11465965001, 13427688667394608761327070753331941386769] (by simp only [List.forall_mem_cons]; exact ⟨p2, p3, p3, p13, p29, p67, p229, p311, p983, p11003, p405928799, p11465965001, p13427688667394608761327070753331941386769, List.forall_mem_nil _⟩) (by decide +kernel)
theorem p14923 : Nat.Prime 14923 :=
  prime_of_check 2 [2, 3, 3, 829] (by simp only [List.forall_mem_cons]; exact ⟨p2, p3, p3, p829, List.forall_mem_nil _⟩) (by decide +kernel)
theorem p24917 : Nat.Prime 24917 :=
  prime_of_check 2 [2, 2, 6229] (by simp only [List.forall_mem_cons]; exact ⟨p2, p2, p6229, List.forall_mem_nil _⟩) (by decide +kernel)
theorem p149503 : Nat.Prime 149503 :=
  prime_of_check 3 [2, 3, 24917] (by simp only [List.forall_mem_cons]; exact ⟨p2, p3, p24917, List.forall_mem_nil _⟩) (by decide +kernel)
theorem p897019 : Nat.Prime 897019 :=
  prime_of_check 2 [2, 3, 149503] (by simp only [List.forall_mem_cons]; exact ⟨p2, p3, p149503, List.forall_mem_nil _⟩) (by decide +kernel)
theorem p417677162933 : Nat.Prime 417677162933 :=
  prime_of_check 2 [2, 2, 59, 1973, 897019] (by simp only [List.forall_mem_cons]; exact ⟨p2, p2, p59, p1973, p897019, List.forall_mem_nil _⟩) (by decide +kernel)
theorem p539204044132271846773 : Nat.Prime 539204044132271846773 :=
  prime_of_check 5 [2, 2, 3, 3, 3, 3, 3, 89, 14923, 417677162933] (by simp only [List.forall_mem_cons]; exact ⟨p2, p2, p3, p3, p3, p3, p3, p89, p14923, p417677162933, List.forall_mem_nil _⟩) (by decide +kernel)
theorem p19267 : Nat.Prime 19267 :=
  prime_of_check 3 [2, 3, 13, 13, 19] (by simp only [List.forall_mem_cons]; exact ⟨p2, p3, p13, p13, p19, List.forall_mem_nil _⟩) (by decide +kernel)
theorem p115603 : Nat.Prime 115603 :=
  prime_of_check 2 [2, 3, 19267] (by simp only [List.forall_mem_cons]; exact ⟨p2, p3, p19267, List.forall_mem_nil _⟩) (by decide +kernel)
theorem p1197907 : Nat.Prime 1197907 :=
  prime_of_check 3 [2, 3, 53, 3767] (by simp only [List.forall_mem_cons]; exact ⟨p2, p3, p53, p3767, List.forall_mem_nil _⟩) (by decide +kernel)
theorem p6942563 : Nat.Prime 6942563 :=
  prime_of_check 2 [2, 11, 17, 19, 977] (by simp only [List.forall_mem_cons]; exact ⟨p2, p11, p17, p19, p977, List.forall_mem_nil _⟩) (by decide +kernel)
theorem p41655379 : Nat.Prime 41655379 :=
  prime_of_check 2 [2, 3, 6942563] (by simp only [List.forall_mem_cons]; exact ⟨p2, p3, p6942563, List.forall_mem_nil _⟩) (by decide +kernel)
theorem p22160661629 : Nat.Prime 22160661629 :=
  prime_of_check 3 [2, 2, 7, 19, 41655379] (by simp only [List.forall_mem_cons]; exact ⟨p2, p2, p7, p19, p41655379, List.forall_mem_nil _⟩) (by decide +kernel)
theorem p413527 : Nat.Prime 413527 :=
  prime_of_check 3 [2, 3, 41, 41, 41] (by simp only [List.forall_mem_cons]; exact ⟨p2, p3, p41, p41, p41, List.forall_mem_nil _⟩) (by decide +kernel)
theorem p25741 : Nat.Prime 25741 :=
  prime_of_check 6 [2, 2, 3, 3, 5, 11, 13] (by simp only [List.forall_mem_cons]; exact ⟨p2, p2, p3, p3, p5, p11, p13, List.forall_mem_nil _⟩) (by decide +kernel)
theorem p772231 : Nat.Prime 772231 :=
  prime_of_check 6 [2, 3, 5, 25741] (by simp only [List.forall_mem_cons]; exact ⟨p2, p3, p5, p25741, List.forall_mem_nil _⟩) (by decide +kernel)
theorem p325086459374267 : Nat.Prime 325086459374267 :=
  prime_of_check 2 [2, 509, 413527, 772231] (by simp only [List.forall_mem_cons]; exact ⟨p2, p509, p413527, p772231, List.forall_mem_nil _⟩) (by decide +kernel)
theorem p8999194758858563409123804352480028797519453 : Nat.Prime 8999194758858563409123804352480028797519453 :=
  prime_of_check 2 [2, 2, 3, 3, 3, 3, 11, 2531, 115603, 1197907, 22160661629, 325086459374267] (by simp only [List.forall_mem_cons]; exact ⟨p2, p2, p3, p3, p3, p3, p11, p2531, p115603, p1197907, p22160661629, p325086459374267, List.forall_mem_nil _⟩) (by decide +kernel)
/-- constants.rs:10 `P_PALLAS`. -/
theorem pallas : Nat.Prime 28948022309329048855892746252171976963363056481941560715954676764349967630337 :=
  prime_of_check 5 [2, 2, 2, 2, 2, 2, 2, 2, 2, 2, 2, 2, 2, 2, 2, 2, 2, 2, 2, 2, 2, 2, 2, 2, 2, 2, 2, 2, 2, 2, 2, 2, 3, 463, 539204044132271846773, 8999194758858563409123804352480028797519453] (by simp only [List.forall_mem_cons]; exact ⟨p2, p2, p2, p2, p2, p2, p2, p2, p2, p2, p2, p2, p2, p2, p2, p2, p2, p2, p2, p2, p2, p2, p2, p2, p2, p2, p2, p2, p2, p2, p2, p2, p3, p463, p539204044132271846773, p8999194758858563409123804352480028797519453, List.forall_mem_nil _⟩) (by decide +kernel)
theorem p24859 : Nat.Prime 24859 :=
  prime_of_check 2 [2, 3, 3, 1381] (by simp only [List.forall_mem_cons]; exact ⟨p2, p3, p3, p1381, List.forall_mem_nil _⟩) (by decide +kernel)
theorem p68477 : Nat.Prime 68477 :=
  prime_of_check 2 [2, 2, 17, 19, 53] (by simp only [List.forall_mem_cons]; exact ⟨p2, p2, p17, p19, p53, List.forall_mem_nil _⟩) (by decide +kernel)
theorem p958679 : Nat.Prime 958679 :=
  prime_of_check 7 [2, 7, 68477] (by simp only [List.forall_mem_cons]; exact ⟨p2, p7, p68477, List.forall_mem_nil _⟩) (by decide +kernel)
theorem p4129989133 : Nat.Prime 4129989133 :=
  prime_of_check 5 [2, 2, 3, 359, 958679] (by simp only [List.forall_mem_cons]; exact ⟨p2, p2, p3, p359, p958679, List.forall_mem_nil _⟩) (by decide +kernel)
theorem p125803 : Nat.Prime 125803 :=
  prime_of_check 3 [2, 3, 3, 29, 241] (by simp only [List.forall_mem_cons]; exact ⟨p2, p3, p3, p29, p241, List.forall_mem_nil _⟩) (by decide +kernel)
theorem p2012849 : Nat.Prime 2012849 :=
  prime_of_check 3 [2, 2, 2, 2, 125803] (by simp only [List.forall_mem_cons]; exact ⟨p2, p2, p2, p2, p125803, List.forall_mem_nil _⟩) (by decide +kernel)
theorem p4025699 : Nat.Prime 4025699 :=
  prime_of_check 2 [2, 2012849] (by simp only [List.forall_mem_cons]; exact ⟨p2, p2012849, List.forall_mem_nil _⟩) (by decide +kernel)
theorem p80513981 : Nat.Prime 80513981 :=
  prime_of_check 2 [2, 2, 5, 4025699] (by simp only [List.forall_mem_cons]; exact ⟨p2, p2, p5, p4025699, List.forall_mem_nil _⟩) (by decide +kernel)
theorem p5247740253619 : Nat.Prime 5247740253619 :=
  prime_of_check 2 [2, 3, 3, 3, 17, 71, 80513981] (by simp only [List.forall_mem_cons]; exact ⟨p2, p3, p3, p3, p17, p71, p80513981, List.forall_mem_nil _⟩) (by decide +kernel)
theorem p1690502597179744445941507 : Nat.Prime 1690502597179744445941507 :=
  prime_of_check 2 [2, 3, 13, 4129989133, 5247740253619] (by simp only [List.forall_mem_cons]; exact ⟨p2, p3, p13, p4129989133, p5247740253619, List.forall_mem_nil _⟩) (by decide +kernel)
theorem p294793 : Nat.Prime 294793 :=
  prime_of_check 10 [2, 2, 2, 3, 71, 173] (by simp only [List.forall_mem_cons]; exact ⟨p2, p2, p2, p3, p71, p173, List.forall_mem_nil _⟩) (by decide +kernel)
theorem p4229279 : Nat.Prime 4229279 :=
  prime_of_check 13 [2, 827, 2557] (by simp only [List.forall_mem_cons]; exact ⟨p2, p827, p2557, List.forall_mem_nil _⟩) (by decide +kernel)
theorem p5701177 : Nat.Prime 5701177 :=
  prime_of_check 7 [2, 2, 2, 3, 3, 13, 6091] (by simp only [List.forall_mem_cons]; exact ⟨p2, p2, p2, p3, p3, p13, p6091, List.forall_mem_nil _⟩) (by decide +kernel)
theorem p399082391 : Nat.Prime 399082391 :=
  prime_of_check 7 [2, 5, 7, 5701177] (by simp only [List.forall_mem_cons]; exact ⟨p2, p5, p7, p5701177, List.forall_mem_nil _⟩) (by decide +kernel)
theorem p12149 : Nat.Prime 12149 :=
  prime_of_check 2 [2, 2, 3037] (by simp only [List.forall_mem_cons]; exact ⟨p2, p2, p3037, List.forall_mem_nil _⟩) (by decide +kernel)
theorem p31649 : Nat.Prime 31649 :=
  prime_of_check 3 [2, 2, 2, 2, 2, 23, 43] (by simp only [List.forall_mem_cons]; exact ⟨p2, p2, p2, p2, p2, p23, p43, List.forall_mem_nil _⟩) (by decide +kernel)
theorem p5239247429827 : Nat.Prime 5239247429827 :=
  prime_of_check 2 [2, 3, 3, 757, 12149, 31649] (by simp only [List.forall_mem_cons]; exact ⟨p2, p3, p3, p757, p12149, p31649, List.forall_mem_nil _⟩) (by decide +kernel)
theorem p10427374428728808478656897599072717 : Nat.Prime 10427374428728808478656897599072717 :=
  prime_of_check 2 [2, 2, 294793, 4229279, 399082391, 5239247429827] (by simp only [List.forall_mem_cons]; exact ⟨p2, p2, p294793, p4229279, p399082391, p5239247429827, List.forall_mem_nil _⟩) (by decide +kernel)
/-- constants.rs:11 `P_VESTA`. -/
theorem vesta : Nat.Prime 28948022309329048855892746252171976963363056481941647379679742748393362948097 :=
  prime_of_check 5 [2, 2, 2, 2, 2, 2, 2, 2, 2, 2, 2, 2, 2, 2, 2, 2, 2, 2, 2, 2, 2, 2, 2, 2, 2, 2, 2, 2, 2, 2, 2, 2, 3, 3, 1709, 24859, 1690502597179744445941507, 10427374428728808478656897599072717] (by simp only [List.forall_mem_cons]; exact ⟨p2, p2, p2, p2, p2, p2, p2, p2, p2, p2, p2, p2, p2, p2, p2, p2, p2, p2, p2, p2, p2, p2, p2, p2, p2, p2, p2, p2, p2, p2, p2, p2, p3, p3, p1709, p24859, p1690502597179744445941507, p10427374428728808478656897599072717, List.forall_mem_nil _⟩) (by decide +kernel)
theorem p490463 : Nat.Prime 490463 :=
  prime_of_check 14 [2, 7, 53, 661] (by simp only [List.forall_mem_cons]; exact ⟨p2, p7, p53, p661, List.forall_mem_nil _⟩) (by decide +kernel)
theorem p17449 : Nat.Prime 17449 :=
  prime_of_check 14 [2, 2, 2, 3, 727] (by simp only [List.forall_mem_cons]; exact ⟨p2, p2, p2, p3, p727, List.forall_mem_nil _⟩) (by decide +kernel)
theorem p6700417 : Nat.Prime 6700417 :=
  prime_of_check 5 [2, 2, 2, 2, 2, 2, 2, 3, 17449] (by simp only [List.forall_mem_cons]; exact ⟨p2, p2, p2, p2, p2, p2, p2, p3, p17449, List.forall_mem_nil _⟩) (by decide +kernel)
theorem p204061199 : Nat.Prime 204061199 :=
  prime_of_check 11 [2, 11, 23, 107, 3769] (by simp only [List.forall_mem_cons]; exact ⟨p2, p11, p23, p107, p3769, List.forall_mem_nil _⟩) (by decide +kernel)
theorem p34282281433 : Nat.Prime 34282281433 :=
  prime_of_check 17 [2, 2, 2, 3, 7, 204061199] (by simp only [List.forall_mem_cons]; exact ⟨p2, p2, p2, p3, p7, p204061199, List.forall_mem_nil _⟩) (by decide +kernel)
theorem p66417393611 : Nat.Prime 66417393611 :=
  prime_of_check 6 [2, 5, 53, 173, 197, 3677] (by simp only [List.forall_mem_cons]; exact ⟨p2, p5, p53, p173, p197, p3677, List.forall_mem_nil _⟩) (by decide +kernel)
theorem p11290956913871 : Nat.Prime 11290956913871 :=
  prime_of_check 13 [2, 5, 17, 66417393611] (by simp only [List.forall_mem_cons]; exact ⟨p2, p5, p17, p66417393611, List.forall_mem_nil _⟩) (by decide +kernel)
theorem p18169 : Nat.Prime 18169 :=
  prime_of_check 11 [2, 2, 2, 3, 757] (by simp only [List.forall_mem_cons]; exact ⟨p2, p2, p2, p3, p757, List.forall_mem_nil _⟩) (by decide +kernel)
theorem p78283 : Nat.Prime 78283 :=
  prime_of_check 3 [2, 3, 3, 4349] (by simp only [List.forall_mem_cons]; exact ⟨p2, p3, p3, p4349, List.forall_mem_nil _⟩) (by decide +kernel)
theorem p704251 : Nat.Prime 704251 :=
  prime_of_check 2 [2, 3, 3, 5, 5, 5, 313] (by simp only [List.forall_mem_cons]; exact ⟨p2, p3, p3, p5, p5, p5, p313, List.forall_mem_nil _⟩) (by decide +kernel)
theorem p46076956964474543 : Nat.Prime 46076956964474543 :=
  prime_of_check 5 [2, 23, 18169, 78283, 704251] (by simp only [List.forall_mem_cons]; exact ⟨p2, p23, p18169, p78283, p704251, List.forall_mem_nil _⟩) (by decide +kernel)
theorem p774023187263532362759620327192479577272145303 : Nat.Prime 774023187263532362759620327192479577272145303 :=
  prime_of_check 3 [2, 3, 3, 2411, 34282281433, 11290956913871, 46076956964474543] (by simp only [List.forall_mem_cons]; exact ⟨p2, p3, p3, p2411, p34282281433, p11290956913871, p46076956964474543, List.forall_mem_nil _⟩) (by decide +kernel)
theorem p835945042244614951780389953367877943453916927241 : Nat.Prime 835945042244614951780389953367877943453916927241 :=
  prime_of_check 11 [2, 2, 2, 3, 3, 3, 5, 774023187263532362759620327192479577272145303] (by simp only [List.forall_mem_cons]; exact ⟨p2, p2, p2, p3, p3, p3, p5, p774023187263532362759620327192479577272145303, List.forall_mem_nil _⟩) (by decide +kernel)
/-- constants.rs:12 `P_SECQ256R1`. -/
theorem secq256r1 : Nat.Prime 115792089210356248762697446949407573530086143415290314195533631308867097853951 :=
  prime_of_check 6 [2, 3, 5, 5, 17, 257, 641, 1531, 65537, 490463, 6700417, 835945042244614951780389953367877943453916927241] (by simp only [List.forall_mem_cons]; exact ⟨p2, p3, p5, p5, p17, p257, p641, p1531, p65537, p490463, p6700417, p835945042244614951780389953367877943453916927241, List.forall_mem_nil _⟩) (by decide +kernel)
theorem p126397 : Nat.Prime 126397 :=
  prime_of_check 5 [2, 2, 3, 3, 3511] (by simp only [List.forall_mem_cons]; exact ⟨p2, p2, p3, p3, p3511, List.forall_mem_nil _⟩) (by decide +kernel)
theorem p1832756501 : Nat.Prime 1832756501 :=
  prime_of_check 2 [2, 2, 5, 5, 5, 29, 126397] (by simp only [List.forall_mem_cons]; exact ⟨p2, p2, p5, p5, p5, p29, p126397, List.forall_mem_nil _⟩) (by decide +kernel)
theorem p49484425527001 : Nat.Prime 49484425527001 :=
  prime_of_check 14 [2, 2, 2, 3, 3, 3, 5, 5, 5, 1832756501] (by simp only [List.forall_mem_cons]; exact ⟨p2, p2, p2, p3, p3, p3, p5, p5, p5, p1832756501, List.forall_mem_nil _⟩) (by decide +kernel)
theorem p958612291309063373 : Nat.Prime 958612291309063373 :=
  prime_of_check 2 [2, 2, 29, 167, 49484425527001] (by simp only [List.forall_mem_cons]; exact ⟨p2, p2, p29, p167, p49484425527001, List.forall_mem_nil _⟩) (by decide +kernel)
theorem p9586122913090633729 : Nat.Prime 9586122913090633729 :=
  prime_of_check 11 [2, 2, 2, 2, 2, 2, 2, 2, 2, 2, 2, 2, 2, 2, 2, 2, 2, 2, 2, 2, 2, 2, 2, 2, 2, 2, 2, 2, 2, 2, 2, 2, 2, 2, 2, 2, 2, 2, 2, 2, 2, 2, 2, 2, 2, 2, 3, 7, 13, 499] (by simp only [List.forall_mem_cons]; exact ⟨p2, p2, p2, p2, p2, p2, p2, p2, p2, p2, p2, p2, p2, p2, p2, p2, p2, p2, p2, p2, p2, p2, p2, p2, p2, p2, p2, p2, p2, p2, p2, p2, p2, p2, p2, p2, p2, p2, p2, p2, p2, p2, p2, p2, p2, p2, p3, p7, p13, p499, List.forall_mem_nil _⟩) (by decide +kernel)
/-- constants.rs:13 `P_BLS12377`. -/
theorem bls12377 : Nat.Prime 8444461749428370424248824938781546531375899335154063827935233455917409239041 :=
  prime_of_check 22 [2, 2, 2, 2, 2, 2, 2, 2, 2, 2, 2, 2, 2, 2, 2, 2, 2, 2, 2, 2, 2, 2, 2, 2, 2, 2, 2, 2, 2, 2, 2, 2, 2, 2, 2, 2, 2, 2, 2, 2, 2, 2, 2, 2, 2, 2, 2, 3, 5, 7, 13, 499, 958612291309063373, 9586122913090633729, 9586122913090633729] (by simp only [List.forall_mem_cons]; exact ⟨p2, p2, p2, p2, p2, p2, p2, p2, p2, p2, p2, p2, p2, p2, p2, p2, p2, p2, p2, p2, p2, p2, p2, p2, p2, p2, p2, p2, p2, p2, p2, p2, p2, p2, p2, p2, p2, p2, p2, p2, p2, p2, p2, p2, p2, p2, p2, p3, p5, p7, p13, p499, p958612291309063373, p9586122913090633729, p9586122913090633729, List.forall_mem_nil _⟩) (by decide +kernel)

end Verif.PrimeCert
