import Verif.WMem
import Verif.WFrOpLemmas
import Verif.WtnsLemmas

/-!
Lemmas for `Verif.WMem`: reading what was written.
-/

namespace Verif.WMem

set_option linter.unusedSimpArgs false
set_option linter.unusedVariables false
set_option linter.unusedSectionVars false

open Verif.Frg (El n64 R Is Plain Sh)

/-! ## Bytes -/

theorem load_lt (b : Bytes) (a k : Nat) : load b a k < 256 ^ k := by
  induction k with
  | zero => simp [load]
  | succ k ih =>
    have h : b (a + k) % 256 < 256 := Nat.mod_lt _ (by decide)
    have : 256 ^ k * (b (a + k) % 256) ≤ 256 ^ k * 255 := Nat.mul_le_mul_left _ (by omega)
    rw [load, pow_succ]
    omega

theorem load_congr {b b' : Bytes} {a k : Nat} (h : ∀ x, a ≤ x → x < a + k → b x = b' x) : load b a k = load b' a k := by
  induction k with
  | zero => rfl
  | succ k ih => rw [load, load, ih fun x h1 h2 => h x h1 (by omega), h (a + k) (by omega) (by omega)]

theorem load_add (b : Bytes) (a k l : Nat) : load b a (k + l) = load b a k + 256 ^ k * load b (a + k) l := by
  induction l with
  | zero => simp [load]
  | succ l ih => rw [← Nat.add_assoc, load, ih, load, Nat.mul_add, pow_add, Nat.add_assoc a k l]; ring

theorem store_in {b : Bytes} {a k v x : Nat} (h1 : a ≤ x) (h2 : x < a + k) : store b a k v x = v / 256 ^ (x - a) % 256 := if_pos ⟨h1, h2⟩

theorem store_out {b : Bytes} {a k v x : Nat} (h : x < a ∨ a + k ≤ x) : store b a k v x = b x := if_neg (by omega)

theorem load_of_digits {b : Bytes} {a k v : Nat} (h : ∀ i, i < k → b (a + i) % 256 = v / 256 ^ i % 256) : load b a k = v % 256 ^ k := by
  induction k with
  | zero => simp [load, Nat.mod_one]
  | succ k ih =>
    rw [load, ih fun i hi => h i (by omega), h k (by omega), pow_succ, Nat.mod_mul]

theorem load_store (b : Bytes) (a k v : Nat) : load (store b a k v) a k = v % 256 ^ k :=
  load_of_digits fun i hi => by rw [store_in (by omega) (by omega), Nat.add_sub_cancel_left, Nat.mod_mod]

theorem load_store_out {b : Bytes} {a k v a' k' : Nat} (h : a' + k' ≤ a ∨ a + k ≤ a') : load (store b a k v) a' k' = load b a' k' :=
  load_congr fun x h1 h2 => store_out (by omega)

theorem copy_in {b : Bytes} {d s k x : Nat} (h1 : d ≤ x) (h2 : x < d + k) : copy b d s k x = b (s + (x - d)) := if_pos ⟨h1, h2⟩

theorem copy_out {b : Bytes} {d s k x : Nat} (h : x < d ∨ d + k ≤ x) : copy b d s k x = b x := if_neg (by omega)

theorem load_shift {b b' : Bytes} {a a' k : Nat} (h : ∀ i, i < k → b (a + i) = b' (a' + i)) : load b a k = load b' a' k := by
  induction k with
  | zero => rfl
  | succ k ih => rw [load, load, ih fun i hi => h i (by omega), h k (by omega)]

theorem load_copy (b : Bytes) (d s : Nat) {k i l : Nat} (h : i + l ≤ k) : load (copy b d s k) (d + i) l = load b (s + i) l :=
  load_shift fun j hj => by
    rw [copy_in (by omega) (by omega)]
    congr 1; omega

theorem load_copy_out {b : Bytes} {d s k a' k' : Nat} (h : a' + k' ≤ d ∨ d + k ≤ a') : load (copy b d s k) a' k' = load b a' k' :=
  load_congr fun x h1 h2 => copy_out (by omega)

/-- A word of a number in memory. -/
theorem load_word (b : Bytes) (a : Nat) {k j : Nat} (h : j < k) : load b (a + 4 * j) 4 = Wtns.word j (load b a (4 * k)) := by
  obtain ⟨l, rfl⟩ := Nat.exists_eq_add_of_lt h
  have e : 4 * (j + l + 1) = 4 * j + (4 + 4 * l) := by ring
  rw [e, load_add, load_add b _ 4 (4 * l)]
  have h1 := load_lt b a (4 * j)
  have h2 := load_lt b (a + 4 * j) 4
  have e1 : (256 : Nat) ^ (4 * j) = 2 ^ (32 * j) := by rw [pow_mul, pow_mul]; norm_num
  have e2 : (256 : Nat) ^ 4 = 2 ^ 32 := by norm_num
  unfold Wtns.word
  rw [e1] at h1 ⊢
  rw [e2] at h2 ⊢
  rw [Nat.add_mul_div_left _ _ (by positivity), Nat.div_eq_of_lt h1, Nat.zero_add, Nat.add_mul_mod_self_left, Nat.mod_eq_of_lt h2]

/-! ## Elements -/

theorem signed_of {z : Int} (h1 : -2 ^ 31 ≤ z) (h2 : z < 2 ^ 31) : signed ((z % 2 ^ 32).toNat % 256 ^ 4) = z := by
  have e : (256 : Nat) ^ 4 = 2 ^ 32 := by norm_num
  rw [e]
  unfold signed
  omega

theorem signed_range {v : Nat} (h : v < 2 ^ 32) : -2 ^ 31 ≤ signed v ∧ signed v < 2 ^ 31 := by
  unfold signed; split <;> omega

theorem flag_bits (e : El) : (flagWord e % 256 ^ 4).testBit 31 = e.long ∧ (flagWord e % 256 ^ 4).testBit 30 = e.mont := by
  unfold flagWord
  cases e.long <;> cases e.mont <;> decide

theorem setEl_out {q : Nat} {b : Bytes} {a x : Nat} {e : El} (h : x < a ∨ a + (8 + 8 * n64 q) ≤ x) : setEl q b a e x = b x := by
  unfold setEl
  rw [store_out (by omega), store_out (by omega), store_out (by omega)]

theorem elAt_congr {q : Nat} {b b' : Bytes} {a : Nat} (h : ∀ x, a ≤ x → x < a + (8 + 8 * n64 q) → b x = b' x) : elAt q b a = elAt q b' a := by
  unfold elAt
  rw [load_congr (b' := b') fun x h1 h2 => h x (by omega) (by omega), load_congr (b' := b') (a := a + 4) fun x h1 h2 => h x (by omega) (by omega),
    load_congr (b' := b') (a := a + 8) fun x h1 h2 => h x (by omega) (by omega)]

theorem elAt_shift {q : Nat} {b b' : Bytes} {a a' : Nat} (h : ∀ i, i < 8 + 8 * n64 q → b (a + i) = b' (a' + i)) : elAt q b a = elAt q b' a' := by
  unfold elAt
  rw [load_shift (b' := b') (a' := a') fun i h1 => h i (by omega),
    load_shift (b' := b') (a := a + 4) (a' := a' + 4) fun i h1 => by rw [Nat.add_assoc, Nat.add_assoc]; exact h (4 + i) (by omega),
    load_shift (b' := b') (a := a + 8) (a' := a' + 8) fun i h1 => by rw [Nat.add_assoc, Nat.add_assoc]; exact h (8 + i) (by omega)]

theorem R_256 (q : Nat) : 256 ^ (8 * n64 q) = R q := by
  unfold Frg.R
  rw [pow_mul, pow_mul]; norm_num

theorem elAt_setEl {q : Nat} (b : Bytes) (a : Nat) (e : El) :
    elAt q (setEl q b a e) a = ⟨signed ((e.short % 2 ^ 32).toNat % 256 ^ 4), e.long, e.mont, e.raw % R q⟩ := by
  have h1 : load (setEl q b a e) a 4 = (e.short % 2 ^ 32).toNat % 256 ^ 4 := by
    unfold setEl; rw [load_store_out (by omega), load_store_out (by omega), load_store]
  have h2 : load (setEl q b a e) (a + 4) 4 = flagWord e % 256 ^ 4 := by
    unfold setEl; rw [load_store_out (by omega), load_store]
  have h3 : load (setEl q b a e) (a + 8) (8 * n64 q) = e.raw % R q := by
    unfold setEl; rw [load_store, R_256]
  unfold elAt
  rw [h1, h2, h3, (flag_bits e).1, (flag_bits e).2]

/-- An element that stands for a number does so after it has been stored. -/
theorem is_setEl {q : Nat} (hq : q < R q) {b : Bytes} {a : Nat} {e : El} {t : Int} (h : Is q e t) : Is q (elAt q (setEl q b a e) a) t := by
  rw [elAt_setEl]
  unfold Is at *
  dsimp only
  split at h
  · rename_i hl
    rw [if_pos hl, Nat.mod_eq_of_lt (by have := h.1; omega)]
    exact h
  · rename_i hl
    rw [if_neg hl]
    refine ⟨?_, fun hm => ?_⟩
    · have := h.1
      rw [signed_of this.1 this.2.1]; exact this
    · have := h.2 hm
      rw [Nat.mod_eq_of_lt (by have := this.1; omega)]; exact this

/-! ## `setInputSignal`: the number -/

/-- The element of the shared memory is long and not in Montgomery form. -/
def SharedLong (p : Prod) (b : Bytes) : Prop := load b (p.shared - 4) 4 = 2 ^ 31

theorem flag_setEl {q : Nat} (b : Bytes) (a : Nat) {e : El} (h1 : e.long = true) (h2 : e.mont = false) :
    load (setEl q b a e) (a + 4) 4 = 2 ^ 31 := by
  have h : load (setEl q b a e) (a + 4) 4 = flagWord e % 256 ^ 4 := by
    unfold setEl; rw [load_store_out (by omega), load_store]
  rw [h]
  unfold flagWord
  rw [h1, h2]; decide

/-- What is needed of the layout here. -/
structure Sizes (p : Prod) : Prop where
  good : WFr.Good p.q
  even : p.n32 = 2 * n64 p.q
  scratch : 8 + 16 * (n64 p.q + 1) ≤ 4 + p.frSize

section
variable {p : Prod} (hp : Sizes p)
include hp

theorem Sizes.elb : p.elb = 8 + 8 * n64 p.q := by unfold Prod.elb; rw [hp.even]; ring

theorem Sizes.shared : p.shared - 8 + 8 = p.shared ∧ 8 + 16 * (n64 p.q + 1) ≤ p.shared - 8 ∧ p.shared - 8 + 4 = p.shared - 4 ∧
    p.hashmap = p.shared + 8 * n64 p.q + 8 := by
  have := hp.scratch
  have := hp.even
  unfold Prod.hashmap Prod.shared Prod.rawPrime
  omega

theorem Sizes.lt_R : p.q < R p.q := hp.good.lt_R

theorem Sizes.LN {b : Bytes} (h : SharedLong p b) : WFr.LN (elAt p.q b) (p.shared - 8) := by
  obtain ⟨h1, h2, h3, h4⟩ := hp.shared
  unfold SharedLong at h
  unfold WFr.LN elAt
  dsimp only
  rw [h3, h]
  decide

theorem toInt_keeps {m : WFr.Mem} {a : Nat} {t : Int} (h : WFr.LN m a) (hi : Is p.q (m a) t) (hs : a ≠ WFr.s1) :
    (WFr.toInt p.q m a).1 a = m a := by
  obtain ⟨_, _, _, h4⟩ := WFr.isNegative_spec hp.good m a
  have e := h4 h
  unfold WFr.toInt
  dsimp only
  rw [e]
  split
  · obtain ⟨el, e1, _⟩ := WFr.neg_spec hp.good m WFr.s1 a hi
    rw [e1]
    unfold WFr.getLsb32
    split
    · dsimp only
      rw [WFr.toNormal_put, WFr.put_put, WFr.put_ne _ _ hs]
    · dsimp only
      rw [WFr.put_ne _ _ hs]
  · unfold WFr.getLsb32
    rw [if_pos h.1]
    dsimp only
    rw [WFr.toNormal_LN h]

theorem eqR_keeps {m : WFr.Mem} {a s : Nat} (hl : (m a).long = false) (h : WFr.LN m s) (hs : s ≠ a) : (WFr.eqR p.q m a s).1 s = m s := by
  unfold WFr.eqR
  rw [if_neg (by simp [hl]), if_pos h.1]
  have e1 : WFr.toLong p.q m a s = m s := by rw [WFr.toLong_put, WFr.put_ne _ _ hs]
  have e2 : (WFr.toLong p.q m a a).mont = false := by
    rw [WFr.toLong_put, WFr.put_same]; unfold WFr.eLong; simp [hl]
  unfold WFr.eqLong
  dsimp only
  rw [if_neg (by simp [e2]), e1, if_neg (by simp [h.2])]
  exact e1

theorem elAt_putShort (b : Bytes) (a v : Nat) : elAt p.q (putShort p b a v) a = ⟨signed (v % 256 ^ 4), false, false, 0⟩ := by
  have h1 : load (putShort p b a v) a 4 = v % 256 ^ 4 := by
    unfold putShort; rw [load_store_out (by omega), load_store_out (by omega), load_store]
  have h2 : load (putShort p b a v) (a + 4) 4 = 0 := by
    unfold putShort; rw [load_store_out (by omega), load_store]; decide
  have h3 : load (putShort p b a v) (a + 8) (8 * n64 p.q) = 0 := by
    unfold putShort; rw [load_store]; simp
  unfold elAt
  rw [h1, h2, h3]; rfl

omit hp in
theorem putShort_out {b : Bytes} {a v x : Nat} (h : x < a ∨ a + (8 + 8 * n64 p.q) ≤ x) : putShort p b a v x = b x := by
  unfold putShort
  rw [store_out (by omega), store_out (by omega), store_out (by omega)]

theorem is_putShort (b : Bytes) (a v : Nat) : Is p.q (elAt p.q (putShort p b a v) a) (signed (v % 256 ^ 4) % p.q) := by
  rw [elAt_putShort hp]
  have : v % 256 ^ 4 < 2 ^ 32 := Nat.mod_lt _ (by norm_num)
  have := signed_range this
  exact Frg.is_short ⟨this.1, this.2, (Int.mod_modEq _ _).symm⟩

/-- The number in the shared memory is put at `a`; besides that only the shared element and the scratch elements are written. -/
theorem putShared_spec {b : Bytes} {a v : Nat} (ha : p.shared + 8 * n64 p.q ≤ a) (hl : SharedLong p b)
    (hv : load b p.shared (8 * n64 p.q) = v) (hlt : v < p.q) :
    Is p.q (elAt p.q (putShared p b a) a) v ∧ SharedLong p (putShared p b a) ∧
      ∀ x, (8 + 16 * (n64 p.q + 1) ≤ x ∧ x < p.shared - 8) ∨ (p.shared + 8 * n64 p.q ≤ x ∧ (x < a ∨ a + p.elb ≤ x)) →
        putShared p b a x = b x := by
  obtain ⟨z1, z2, z3, z4⟩ := hp.shared
  have hR := hp.lt_R
  rw [hp.elb]
  have hs1 : WFr.s1 = 8 := rfl
  have hs2 : WFr.s2 p.q = 8 + 8 * (n64 p.q + 1) := rfl
  have ln := hp.LN hl
  have i0 : Is p.q (elAt p.q b (p.shared - 8)) v := by
    have : elAt p.q b (p.shared - 8) = ⟨(elAt p.q b (p.shared - 8)).short, true, false, v⟩ := by
      have h1 := ln.1
      have h2 := ln.2
      unfold elAt at *
      dsimp only at *
      rw [h1, h2, z1, hv]
    rw [this]
    exact Frg.is_long ⟨hlt, Int.ModEq.refl _⟩
  have k1 := toInt_keeps hp ln i0 (by omega)
  unfold putShared
  dsimp only
  generalize WFr.toInt p.q (elAt p.q b) (p.shared - 8) = t at *
  -- after `Fr_toInt`
  generalize hb1 : onEls p.q [p.shared - 8, WFr.s1, WFr.s2 p.q] t.1 b = b1
  have f1 : ∀ x, (8 + 16 * (n64 p.q + 1) ≤ x ∧ x < p.shared - 8) ∨ p.shared + 8 * n64 p.q ≤ x → b1 x = b x := by
    intro x hx
    rw [← hb1]
    simp only [onEls, List.foldl]
    rw [setEl_out (by omega), setEl_out (by omega), setEl_out (by omega)]
  have g1 : ∀ x, p.shared - 8 ≤ x → b1 x = setEl p.q b (p.shared - 8) (elAt p.q b (p.shared - 8)) x := by
    intro x hx
    rw [← hb1, ← k1]
    simp only [onEls, List.foldl]
    rw [setEl_out (by omega), setEl_out (by omega)]
  have i1 : Is p.q (elAt p.q b1 (p.shared - 8)) v := by
    rw [elAt_congr fun x h1 _ => g1 x h1]; exact is_setEl hR i0
  have l1 : SharedLong p b1 := by
    unfold SharedLong
    rw [load_congr fun x h1 _ => g1 x (by omega), ← z3]
    exact flag_setEl b _ ln.1 ln.2
  -- after the short number has been written
  generalize hb2 : putShort p b1 a t.2 = b2
  have f2 : ∀ x, x < a ∨ a + (8 + 8 * n64 p.q) ≤ x → b2 x = b1 x := fun x hx => by rw [← hb2, putShort_out hx]
  have i2 : Is p.q (elAt p.q b2 a) (signed (t.2 % 256 ^ 4) % p.q) := by rw [← hb2]; exact is_putShort hp _ _ _
  have s2 : elAt p.q b2 (p.shared - 8) = elAt p.q b1 (p.shared - 8) := elAt_congr fun x h1 h2 => f2 x (by omega)
  have l2 : SharedLong p b2 := by
    unfold SharedLong; rw [load_congr fun x h1 h2 => f2 x (by omega)]; exact l1
  have e2 : (elAt p.q b2 a).long = false := by rw [← hb2, elAt_putShort hp]
  have k3 := eqR_keeps hp (m := elAt p.q b2) (a := a) (s := p.shared - 8) e2 (hp.LN l2) (by omega)
  obtain ⟨_, c2⟩ := WFr.eqR_spec hp.good (elAt p.q b2) a (p.shared - 8)
  have hpos : (0 : Int) < p.q := by exact_mod_cast hp.good.pos
  have c3 := c2 _ _ i2 (by rw [s2]; exact i1) (Int.emod_nonneg _ (by omega)) (Int.emod_lt_of_pos _ hpos) (by omega) (by exact_mod_cast hlt)
  generalize WFr.eqR p.q (elAt p.q b2) a (p.shared - 8) = e at *
  -- after `Fr_eqR`
  generalize hb3 : onEls p.q [a, p.shared - 8, WFr.s1, WFr.s2 p.q] e.1 b2 = b3
  have f3 : ∀ x, (8 + 16 * (n64 p.q + 1) ≤ x ∧ x < p.shared - 8) ∨ (p.shared + 8 * n64 p.q ≤ x ∧ (x < a ∨ a + (8 + 8 * n64 p.q) ≤ x)) →
      b3 x = b2 x := by
    intro x hx
    rw [← hb3]
    simp only [onEls, List.foldl]
    rw [setEl_out (by omega), setEl_out (by omega), setEl_out (by omega), setEl_out (by omega)]
  have g3 : ∀ x, p.shared - 8 ≤ x → x < p.shared - 8 + (8 + 8 * n64 p.q) →
      b3 x = setEl p.q (setEl p.q b2 a (e.1 a)) (p.shared - 8) (elAt p.q b1 (p.shared - 8)) x := by
    intro x h1 h2
    rw [← hb3, ← s2, ← k3]
    simp only [onEls, List.foldl]
    rw [setEl_out (by omega), setEl_out (by omega)]
  have i3 : Is p.q (elAt p.q b3 (p.shared - 8)) v := by
    rw [elAt_congr g3]; exact is_setEl hR i1
  have l3 : SharedLong p b3 := by
    unfold SharedLong
    rw [load_congr fun x h1 h2 => g3 x (by omega) (by omega), ← z3]
    have := hp.LN l1
    exact flag_setEl _ _ this.1 this.2
  have hf : ∀ x, (8 + 16 * (n64 p.q + 1) ≤ x ∧ x < p.shared - 8) ∨ (p.shared + 8 * n64 p.q ≤ x ∧ (x < a ∨ a + (8 + 8 * n64 p.q) ≤ x)) →
      b3 x = b x := by
    intro x hx
    rw [f3 x hx, f2 x (by omega), f1 x (by omega)]
  split
  · rename_i ht
    rw [c3] at ht
    have ht := of_decide_eq_true ht
    refine ⟨?_, ?_, fun x hx => ?_⟩
    · have := is_putShort hp b3 a t.2
      rw [ht] at this
      exact this
    · unfold SharedLong; rw [load_congr fun x h1 h2 => putShort_out (by omega)]; exact l3
    · rw [putShort_out (by omega), hf x hx]
  · refine ⟨?_, ?_, fun x hx => ?_⟩
    · have : elAt p.q (frCopy p b3 a (p.shared - 8)) a = elAt p.q b3 (p.shared - 8) := elAt_shift fun i hi => by
        unfold frCopy
        rw [copy_in (by omega) (by omega)]
        congr 1; omega
      rw [this]; exact i3
    · unfold SharedLong frCopy; rw [load_copy_out (by omega)]; exact l3
    · unfold frCopy; rw [copy_out (by omega), hf x hx]

end

end Verif.WMem
