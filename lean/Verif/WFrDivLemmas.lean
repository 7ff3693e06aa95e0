import Verif.WFrMulLemmas

/-! Lemmas on `Verif.WFrInt`: quotient and rest, inverse, power. -/

namespace Verif.WFr

set_option linter.unusedSimpArgs false
set_option linter.unusedVariables false

open Verif.Frg (w qbits n64 R limb Plain)

/-! ## Quotient and rest -/

theorem pow256 (k : Nat) : 2 ^ (8 * k) = 256 ^ k := by rw [pow_mul]; norm_num

theorem R_256 (q : Nat) : R q = 256 ^ (8 * n64 q) := by
  rw [← pow256]; unfold R; congr 1; omega

theorem topByte_spec {x stop e : Nat} (hs : stop ≤ e) (hx : x < 256 ^ (e + 1)) :
    stop ≤ topByte x stop e ∧ topByte x stop e ≤ e ∧ x < 256 ^ (topByte x stop e + 1) ∧
      (256 ^ topByte x stop e ≤ x ∨ topByte x stop e = stop) := by
  induction e with
  | zero =>
    have : stop = 0 := by omega
    subst this
    exact ⟨le_refl _, le_refl _, hx, Or.inr rfl⟩
  | succ e ih =>
    unfold topByte
    split
    · next h =>
      refine ⟨hs, le_refl _, hx, ?_⟩
      rcases h with h | h
      · left
        by_contra hc
        apply h
        unfold byte
        rw [pow256, Nat.div_eq_of_lt (by omega)]
      · exact Or.inr h
    · next h =>
      have h1 : byte (e + 1) x = 0 := by by_contra hc; exact h (Or.inl hc)
      have h2 : e + 1 ≠ stop := fun hc => h (Or.inr hc)
      have h3 : x < 256 ^ (e + 1) := by
        unfold byte at h1
        rw [pow256] at h1
        have h4 : x / 256 ^ (e + 1) < 256 := Nat.div_lt_of_lt_mul (by rw [← pow_succ]; exact hx)
        rw [Nat.mod_eq_of_lt h4] at h1
        rcases Nat.div_eq_zero_iff.mp h1 with h5 | h5
        · have : 0 < 256 ^ (e + 1) := Nat.pow_pos (by norm_num)
          omega
        · exact h5
      obtain ⟨a, b, c, d⟩ := ih (by omega) h3
      exact ⟨a, by omega, c, d⟩

theorem adjust_spec : ∀ (f sx : Nat) (ec : Int), sx < 256 ^ (4 + f) → -(f : Int) ≤ ec →
    ∃ k : Nat, (adjust f sx ec).1 = sx / 256 ^ k ∧ (adjust f sx ec).2 = ec + k ∧ (adjust f sx ec).1 < B ∧ 0 ≤ (adjust f sx ec).2
  | 0, sx, ec, h1, h2 => ⟨0, by simp [adjust], by simp [adjust], by
      simp only [adjust]; have := B_val; omega, by simp only [adjust]; omega⟩
  | f + 1, sx, ec, h1, h2 => by
    unfold adjust
    split
    · next h => exact ⟨0, by simp, by simp, h.1, h.2⟩
    · have h3 : sx / 256 < 256 ^ (4 + f) := Nat.div_lt_of_lt_mul (by rw [← pow_succ']; exact h1)
      obtain ⟨k, a, b, c, d⟩ := adjust_spec f (sx / 256) (ec + 1) h3 (by push_cast at h2; omega)
      refine ⟨k + 1, ?_, ?_, c, d⟩
      · rw [a, Nat.div_div_eq_div_mul, pow_succ']
      · rw [b]; push_cast; ring

theorem divStep_spec {q x y sx ec rr cc : Nat} (hx : x < R q) (hy : 0 < y) (hinv : x = cc * y + rr) (hle : y * sx * 256 ^ ec ≤ rr) :
    divStep q y sx ec rr cc = (cc + sx * 256 ^ ec, rr - y * sx * 256 ^ ec) := by
  unfold divStep
  rw [pow256]
  have h1 : y * sx ≤ y * sx * 256 ^ ec := Nat.le_mul_of_pos_right _ (by positivity)
  have h2 : rr < R q := by omega
  have h3 : cc + sx * 256 ^ ec < R q := by
    have e : (cc + sx * 256 ^ ec) * y = cc * y + y * sx * 256 ^ ec := by ring
    have h4 : cc + sx * 256 ^ ec ≤ (cc + sx * 256 ^ ec) * y := Nat.le_mul_of_pos_right _ hy
    omega
  rw [Nat.mod_eq_of_lt h3, Nat.mod_eq_of_lt (show y * sx < R q by omega), Nat.mod_eq_of_lt (show y * sx * 256 ^ ec < R q by omega),
    intSub_le h2 hle]

theorem divLoop_spec {q x y eY sy : Nat} (h : Good q) (hx : x < R q) (hyR : y < R q) (hy : 0 < y) (he : 3 ≤ eY) (heY : eY ≤ 8 * n64 q - 1)
    (hsy : 1 < sy) (hsyB : sy ≤ B) (hysy : y < sy * 256 ^ (eY - 3)) : ∀ (f eX0 rr cc : Nat), rr < f → 7 ≤ eX0 → rr < 256 ^ (eX0 + 1) →
      x = cc * y + rr → divLoop q y eY sy f eX0 rr cc = some (x / y, x % y)
  | 0, _, rr, _, hf, _, _, _ => by omega
  | f + 1, eX0, rr, cc, hf, h7, hrr, hinv => by
    obtain ⟨t1, t2, t3, -⟩ := topByte_spec (stop := 7) h7 hrr
    have hn := h.n_pos
    unfold divLoop
    simp only
    generalize topByte rr 7 eX0 = eX at *
    rw [pow256]
    have hw8 : w = 256 ^ 8 := by unfold w; norm_num
    have hq1 : rr / 256 ^ (eX - 7) < w :=
      Nat.div_lt_of_lt_mul (by rw [hw8, ← pow_add, show eX - 7 + 8 = eX + 1 by omega]; exact t3)
    rw [Nat.mod_eq_of_lt hq1]
    generalize hs0 : rr / 256 ^ (eX - 7) / sy = sx
    have hsx : sx < w := by rw [← hs0]; exact lt_of_le_of_lt (Nat.div_le_self _ _) hq1
    have hsx1 : sx * sy * 256 ^ (eX - 7) ≤ rr := by
      rw [← hs0]
      calc _ ≤ rr / 256 ^ (eX - 7) * 256 ^ (eX - 7) := Nat.mul_le_mul_right _ (Nat.div_mul_le_self _ _)
        _ ≤ rr := Nat.div_mul_le_self _ _
    obtain ⟨k, a1, a2, a3, a4⟩ := adjust_spec (8 * n64 q + 8) sx ((eX : Int) - eY - 4)
      (lt_of_lt_of_le hsx (by rw [hw8]; exact Nat.pow_le_pow_right (by norm_num) (by omega))) (by omega)
    generalize adjust (8 * n64 q + 8) sx ((eX : Int) - eY - 4) = p at *
    have hrR : rr < R q := by omega
    split
    · rw [intGte_eq h hrR hyR]
      by_cases hge : y ≤ rr
      · simp only [hge, decide_true, if_true]
        rw [divStep_spec hx hy hinv (by simpa using hge)]
        simp only [Nat.pow_zero, Nat.mul_one]
        refine divLoop_spec h hx hyR hy he heY hsy hsyB hysy f eX _ _ (by omega) (by omega) (by omega) ?_
        rw [Nat.add_mul, Nat.one_mul]; omega
      · simp only [hge, decide_false, Bool.false_eq_true, if_false]
        have h1 : x / y = cc := by
          rw [hinv, Nat.add_comm, Nat.add_mul_div_right _ _ hy, Nat.div_eq_of_lt (by omega), Nat.zero_add]
        have h2 : x % y = rr := by
          rw [hinv, Nat.add_comm, Nat.add_mul_mod_self_right, Nat.mod_eq_of_lt (by omega)]
        rw [h1, h2]
    · next hp0 =>
      have hle : y * p.1 * 256 ^ p.2.toNat ≤ rr := by
        have h1 : p.1 * 256 ^ k ≤ sx := by rw [a1]; exact Nat.div_mul_le_self _ _
        have h2 : (eY - 3) + p.2.toNat = (eX - 7) + k := by omega
        calc y * p.1 * 256 ^ p.2.toNat ≤ sy * 256 ^ (eY - 3) * p.1 * 256 ^ p.2.toNat := by gcongr
          _ = sy * p.1 * 256 ^ ((eY - 3) + p.2.toNat) := by rw [pow_add]; ring
          _ = p.1 * 256 ^ k * sy * 256 ^ (eX - 7) := by rw [h2, pow_add]; ring
          _ ≤ sx * sy * 256 ^ (eX - 7) := by gcongr
          _ ≤ rr := hsx1
      rw [divStep_spec hx hy hinv hle]
      simp only
      have hpos : 0 < y * p.1 * 256 ^ p.2.toNat := by
        have : 0 < p.1 := by omega
        positivity
      refine divLoop_spec h hx hyR hy he heY hsy hsyB hysy f eX _ _ (by omega) (by omega) (by omega) ?_
      rw [hinv, show (cc + p.1 * 256 ^ p.2.toNat) * y = cc * y + y * p.1 * 256 ^ p.2.toNat by ring]
      omega

theorem intDiv_eq {q x y : Nat} (h : Good q) (hx : x < R q) (hyR : y < R q) (hy : 0 < y) :
    intDiv q x y = some (x / y, x % y) := by
  have hn := h.n_pos
  have hy' : y < 256 ^ (8 * n64 q - 1 + 1) := by rw [show 8 * n64 q - 1 + 1 = 8 * n64 q by omega, ← R_256]; exact hyR
  obtain ⟨t1, t2, t3, t4⟩ := topByte_spec (stop := 3) (show 3 ≤ 8 * n64 q - 1 by omega) hy'
  have hB4 : B = 256 ^ 4 := by unfold B; norm_num
  unfold intDiv
  simp only
  generalize topByte y 3 (8 * n64 q - 1) = eY at *
  rw [pow256]
  have h1 : y / 256 ^ (eY - 3) < B :=
    Nat.div_lt_of_lt_mul (by rw [hB4, ← pow_add, show eY - 3 + 4 = eY + 1 by omega]; exact t3)
  have h2 : 0 < y / 256 ^ (eY - 3) := by
    refine Nat.div_pos ?_ (by positivity)
    rcases t4 with t4 | t4
    · exact le_trans (Nat.pow_le_pow_right (by norm_num) (by omega)) t4
    · rw [t4]; exact hy
  rw [Nat.mod_eq_of_lt h1, if_neg (by omega)]
  refine divLoop_spec h hx hyR hy t1 t2 (by omega) (by omega) ?_ _ _ _ _ (by omega) (by omega) ?_ (by omega)
  · rw [mul_comm]; exact Nat.lt_mul_div_succ y (by positivity)
  · rw [show 8 * n64 q - 1 + 1 = 8 * n64 q by omega, ← R_256]; exact hx

theorem intDiv_zero {q x : Nat} (h : Good q) : intDiv q x 0 = none := by
  unfold intDiv
  simp

/-! ## Inverse -/

/-- A number with a sign. -/
def sgn (s : Bool) (t : Nat) : Int := if s then -(t : Int) else t

theorem invSign_spec {q p t : Nat} {st sn : Bool} (h : Good q) (hpt : p + t < R q) (hs : (t = 0 ∧ st = false ∧ sn = false ∧ 0 < p) ∨ st ≠ sn) :
    invSign q p t st sn = (p + t, !sn) := by
  unfold invSign
  rcases hs with ⟨rfl, rfl, rfl, h0⟩ | hs
  · simp only [Bool.false_eq_true, if_false, Bool.not_false]
    rw [intGte_eq h (by omega) (by omega)]
    simp only [show ¬ p ≤ 0 by omega, decide_false, Bool.false_eq_true, if_false]
    rw [intSub_le (by omega) (by omega)]
    simp
  · have e := intAdd_eq q p t (by omega) (by omega)
    rw [Nat.mod_eq_of_lt hpt] at e
    cases st <;> cases sn <;> simp at hs ⊢ <;> rw [e]

theorem invLoop_spec {q x : Nat} (h : Good q) : ∀ (f t : Nat) (st : Bool) (nt : Nat) (sn : Bool) (r nr : Nat),
    nr < f → nr < r → 0 < nt → r * nt + nr * t = q → t ≤ nt → ((t = 0 ∧ st = false ∧ sn = false) ∨ st ≠ sn) →
    sgn st t * x ≡ r [ZMOD q] → sgn sn nt * x ≡ nr [ZMOD q] →
    ∃ t' st', invLoop q f t st nt sn r nr = some (t', st') ∧ t' ≤ q ∧ sgn st' t' * x ≡ Nat.gcd r nr [ZMOD q]
  | 0, _, _, _, _, _, nr, hf, _, _, _, _, _, _, _ => by omega
  | f + 1, t, st, nt, sn, r, nr, hf, hr, hnt, hq, htn, hs, c1, c2 => by
    have hR := h.lt_R
    have hnt1 : nt ≤ q := by
      have : nt ≤ r * nt := Nat.le_mul_of_pos_left _ (by omega)
      omega
    have hrq : r ≤ q := by
      have : r ≤ r * nt := Nat.le_mul_of_pos_right _ hnt
      omega
    unfold invLoop
    rw [intIsZero_eq h (by omega)]
    by_cases h0 : nr = 0
    · subst h0
      simp only [decide_true, if_true]
      exact ⟨t, st, rfl, by omega, by simpa using c1⟩
    · simp only [h0, decide_false, Bool.false_eq_true, if_false]
      have hnr : 0 < nr := by omega
      rw [intDiv_eq h (by omega) (by omega) hnr]
      simp only
      have hqq : 0 < r / nr := Nat.div_pos (by omega) hnr
      have hdm := Nat.div_add_mod r nr
      have hlt := Nat.mod_lt r hnr
      have hnew : nr * (r / nr * nt + t) + r % nr * nt = q := by
        rw [← hq]
        calc _ = (nr * (r / nr) + r % nr) * nt + nr * t := by ring
          _ = _ := by rw [hdm]
      have hb : r / nr * nt + t ≤ q := by
        have : r / nr * nt + t ≤ nr * (r / nr * nt + t) := Nat.le_mul_of_pos_left _ hnr
        omega
      have hp1 : nt ≤ r / nr * nt := Nat.le_mul_of_pos_left _ hqq
      have hdl := Nat.div_le_self r nr
      rw [intMul_eq h (by omega) (by omega), Nat.mod_eq_of_lt (show r / nr * nt < R q by omega),
        invSign_spec h (by omega) (by
          rcases hs with ⟨a, b, c⟩ | hs
          · exact Or.inl ⟨a, b, c, by omega⟩
          · exact Or.inr hs)]
      simp only
      obtain ⟨t', st', e1, e2, e3⟩ := invLoop_spec (x := x) h f nt sn (r / nr * nt + t) (!sn) nr (r % nr)
        (by omega) hlt (by omega) hnew (by omega) (Or.inr (by cases sn <;> simp)) c2 (by
          have e : sgn (!sn) (r / nr * nt + t) = sgn st t - (r / nr : Nat) * sgn sn nt := by
            rcases hs with ⟨a, b, c⟩ | hs
            · subst a b c; simp [sgn]
            · cases st <;> cases sn <;> simp [sgn] at hs ⊢ <;> ring
          rw [e]
          have : ((r % nr : Nat) : Int) = r - (r / nr : Nat) * nr := by
            have : (nr : Int) * (r / nr : Nat) + (r % nr : Nat) = r := by exact_mod_cast hdm
            linarith
          rw [this, sub_mul, mul_assoc]
          exact c1.sub (c2.mul_left _))
      refine ⟨t', st', e1, e2, ?_⟩
      rw [show Nat.gcd r nr = Nat.gcd nr (r % nr) by rw [Nat.gcd_comm, Nat.gcd_rec, Nat.gcd_comm]]
      exact e3

theorem inverseMod_spec {q x : Nat} (h : Good q) (hx : x < q) :
    ∃ v, inverseMod q x = some v ∧ v ≤ q ∧ (Nat.Coprime x q → v < q ∧ (v : Int) * x ≡ 1 [ZMOD q]) := by
  have hR := h.lt_R
  have hb := h.big
  obtain ⟨t, st, e1, e2, e3⟩ := invLoop_spec (x := x) h (x + 1) 0 false 1 false q x (by omega) hx (by omega) (by omega) (by omega)
    (Or.inl ⟨rfl, rfl, rfl⟩) (by simp [sgn, Int.ModEq]) (by simp [sgn])
  unfold inverseMod
  rw [e1]
  simp only
  refine ⟨_, rfl, ?_, ?_⟩
  · cases st
    · simpa using e2
    · simp only [if_true]; rw [intSub_le hR e2]; omega
  · intro hc
    rw [Nat.gcd_comm, hc] at e3
    have hne : ∀ z : Int, (q : Int) ∣ z → ¬ z * x ≡ 1 [ZMOD q] := by
      intro z hz hm
      have h1 : (q : Int) ∣ 1 := by
        have := (Int.modEq_zero_iff_dvd.mpr (Dvd.dvd.mul_right hz x)).symm.trans hm
        have := Int.modEq_iff_dvd.mp this
        simpa using this
      have := Int.le_of_dvd (by norm_num) h1
      omega
    cases st
    · simp only [Bool.false_eq_true, if_false]
      have e4 : (t : Int) * x ≡ 1 [ZMOD q] := by simpa [sgn] using e3
      refine ⟨?_, e4⟩
      by_contra hc2
      exact hne t (by rw [show t = q by omega]) e4
    · simp only [if_true]
      rw [intSub_le hR e2]
      have e4 : -(t : Int) * x ≡ 1 [ZMOD q] := by simpa [sgn] using e3
      have ht : 0 < t := by
        by_contra hc2
        exact hne (-(t : Int)) (by rw [show t = 0 by omega]; simp) e4
      refine ⟨by omega, ?_⟩
      rw [Nat.cast_sub e2]
      refine Int.ModEq.trans ?_ e4
      refine Int.ModEq.mul_right _ ?_
      simp [Int.ModEq]

theorem inverseMod_zero {q : Nat} (h : Good q) : inverseMod q 0 = some 0 := by
  have hR : 0 < R q := by have := h.lt_R; omega
  unfold inverseMod
  simp only [Nat.zero_add]
  unfold invLoop
  rw [intIsZero_eq h hR]
  simp

/-! ## In the field -/

theorem coprime_R {q : Nat} (h : Good q) : Nat.Coprime q (R q) := by
  unfold R
  exact Nat.Coprime.pow_right _ (Nat.coprime_two_right.mpr (Nat.odd_iff.mpr h.odd))

theorem cancelR {q : Nat} (h : Good q) {x y : Int} (e : x * R q ≡ y * R q [ZMOD q]) : x ≡ y [ZMOD q] := by
  have hg : Int.gcd (q : Int) (R q : Int) = 1 := by
    rw [Int.gcd_natCast_natCast]; exact coprime_R h
  refine (Int.modEq_iff_dvd).2 ?_
  have h1 : (q : Int) ∣ (y - x) * R q := by
    have := Int.modEq_iff_dvd.1 e
    rwa [← sub_mul] at this
  exact Int.dvd_of_dvd_mul_left_of_gcd_one h1 hg

section
variable {q : Nat} (h : Good q)
include h

/-- The Montgomery product is `z` if `x·y` is `z·R`. -/
theorem plain_mul {a b : Nat} {x y z : Int} (ha : Plain q a x) (hb : Plain q b y) (hz : x * y ≡ z * R q [ZMOD q]) :
    Plain q (f1mMul q a b) z := by
  have hR := h.lt_R
  obtain ⟨h1, h2⟩ := f1mMul_spec h (lt_trans ha.1 hR) (lt_trans hb.1 hR) (Nat.mul_lt_mul'' ha.1 (lt_trans hb.1 hR))
  refine ⟨h1, cancelR h ?_⟩
  have e := Frg.natCast_modEq h2
  push_cast at e
  exact (e.trans (ha.2.mul hb.2)).trans hz

theorem plain_square {a : Nat} {x z : Int} (ha : Plain q a x) (hz : x * x ≡ z * R q [ZMOD q]) : Plain q (f1mSquare q a) z := by
  have hR := h.lt_R
  obtain ⟨h1, h2⟩ := f1mSquare_spec h (lt_trans ha.1 hR) (Nat.mul_lt_mul'' ha.1 (lt_trans ha.1 hR))
  refine ⟨h1, cancelR h ?_⟩
  have e := Frg.natCast_modEq h2
  push_cast at e
  exact (e.trans (ha.2.mul ha.2)).trans hz

theorem plain_mod (n : Nat) : Plain q (n % q) n :=
  ⟨Nat.mod_lt _ h.pos, Frg.natCast_modEq (Nat.mod_modEq _ _)⟩

theorem plain_r2 : Plain q (r2 q) (R q * R q) := by
  have := plain_mod h (R q * R q); push_cast at this; exact this

theorem plain_r3 : Plain q (r3 q) (R q * R q * R q) := by
  have := plain_mod h (R q * R q * R q); push_cast at this; exact this

theorem plain_one : Plain q (one q) (1 * R q) := by
  have := plain_mod h (R q); rw [one_mul]; exact this

theorem plain_toMont {a : Nat} {x : Int} (ha : Plain q a x) : Plain q (f1mToMont q a) (x * R q) :=
  plain_mul h ha (plain_r2 h) (by rw [mul_assoc])

theorem plain_fromMont {a : Nat} {x : Int} (ha : Plain q a (x * R q)) : Plain q (f1mFromMont q a) x := by
  obtain ⟨h1, h2⟩ := mReduct_spec h (lt_trans ha.1 h.lt_R)
  refine ⟨h1, cancelR h ?_⟩
  have e := Frg.natCast_modEq h2
  push_cast at e
  exact e.trans ha.2

theorem plain_add {a b : Nat} {x y : Int} (ha : Plain q a x) (hb : Plain q b y) : Plain q (f1mAdd q a b) (x + y) := by
  have h1 := ha.1
  have h2 := hb.1
  have hR := h.lt_R
  refine Plain.congr ?_ (ha.2.add hb.2)
  rw [f1mAdd_eq h (by omega) (by omega) (by omega)]
  split
  · exact Frg.plain_of (by omega) (-1) (by omega)
  · exact Frg.plain_of (by omega) 0 (by omega)

theorem plain_sub {a b : Nat} {x y : Int} (ha : Plain q a x) (hb : Plain q b y) : Plain q (f1mSub q a b) (x - y) := by
  have h1 := ha.1
  have h2 := hb.1
  refine Plain.congr ?_ (ha.2.sub hb.2)
  rw [f1mSub_eq h h1 h2]
  split
  · exact Frg.plain_of (by omega) 1 (by omega)
  · exact Frg.plain_of (by omega) 0 (by omega)

theorem plain_neg {a : Nat} {x : Int} (ha : Plain q a x) : Plain q (f1mNeg q a) (-x) := by
  have := plain_sub h (Plain.self h.pos) ha
  simpa [f1mNeg] using this

/-- One byte of the exponent. -/
theorem expBits {base : Nat} {x : Int} (hb : Plain q base (x * R q)) : ∀ (ws : List Nat) (r b k : Nat) (z : Nat), ws = (List.range k).reverse.map (2 ^ ·) →
    Plain q r (x ^ z * R q) → b < 2 ^ k →
    Plain q (ws.foldl (expBit q base) (r, b)).1 (x ^ (z * 2 ^ k + b) * R q)
  | [], r, b, k, z, hw, hr, hk => by
    have : k = 0 := by
      have := congrArg List.length hw
      simp at this; omega
    subst this
    simp only [Nat.pow_zero, Nat.mul_one] at hk ⊢
    rw [show b = 0 by omega]
    simpa using hr
  | w0 :: ws, r, b, k, z, hw, hr, hk => by
    cases k with
    | zero => simp at hw
    | succ k =>
      rw [List.range_succ, List.reverse_append, List.reverse_singleton, List.singleton_append, List.map_cons] at hw
      injection hw with hw0 hws
      subst hw0
      have hsq : Plain q (f1mSquare q r) (x ^ (2 * z) * R q) :=
        plain_square h hr (by rw [two_mul, pow_add]; exact (by ring : x ^ z * (R q : Int) * (x ^ z * R q) = x ^ z * x ^ z * R q * R q) ▸ Int.ModEq.refl _)
      simp only [List.foldl_cons, expBit]
      split
      · next hge =>
        have hm : Plain q (f1mMul q base (f1mSquare q r)) (x ^ (2 * z + 1) * R q) :=
          plain_mul h hb hsq (by rw [pow_succ]; exact (by ring : x * (R q : Int) * (x ^ (2 * z) * R q) = x ^ (2 * z) * x * R q * R q) ▸ Int.ModEq.refl _)
        have := expBits hb ws (f1mMul q base (f1mSquare q r)) (b - 2 ^ k) k (2 * z + 1) hws hm (by rw [pow_succ] at hk; omega)
        convert this using 3
        rw [pow_succ, Nat.add_mul]
        have : z * (2 ^ k * 2) = 2 * z * 2 ^ k := by ring
        omega
      · next hge =>
        have := expBits hb ws (f1mSquare q r) b k (2 * z) hws hsq (by omega)
        convert this using 3
        rw [pow_succ]; ring

theorem expLoop_spec {base e : Nat} {x : Int} (hb : Plain q base (x * R q)) : ∀ (i r z : Nat),
    Plain q r (x ^ z * R q) → Plain q (expLoop q base e i r) (x ^ (z * 256 ^ i + e % 256 ^ i) * R q)
  | 0, r, z, hr => by
    unfold expLoop
    simpa [Nat.mod_one] using hr
  | i + 1, r, z, hr => by
    unfold expLoop
    have hb1 : byte i e < 2 ^ 8 := Nat.mod_lt _ (by norm_num)
    have h1 := expBits h hb [128, 64, 32, 16, 8, 4, 2, 1] r (byte i e) 8 z (by decide) hr hb1
    have := expLoop_spec (e := e) hb i _ _ h1
    convert this using 3
    rw [Nat.mod_pow_succ]
    unfold byte
    rw [pow256]
    ring

theorem plain_exp {base e : Nat} {x : Int} (hb : Plain q base (x * R q)) (he : e < R q) : Plain q (f1mExp q base e) (x ^ e * R q) := by
  have := expLoop_spec h (e := e) hb (8 * n64 q) (one q) 0 (by rw [pow_zero]; exact plain_one h)
  rw [← R_256, Nat.mod_eq_of_lt he, Nat.zero_mul, Nat.zero_add] at this
  exact this

end

end Verif.WFr
