import Verif.WMemInit
import Verif.HashMapLemmas

/-!
Lemmas for `Verif.WMem`: the exported functions.
-/

namespace Verif.WMem

set_option linter.unusedSimpArgs false
set_option linter.unusedVariables false
set_option linter.unusedSectionVars false

open Verif.Frg (El n64 R Is Plain Sh)
open Verif.HashMap (Info Slot hasher generate findW searchW FindErr)

/-! ## Hashes -/

theorem utf8_ascii : ∀ (l : List Char), (∀ c ∈ l, c.toNat < 128) → (l.flatMap String.utf8EncodeChar).map UInt8.toNat = l.map Char.toNat
  | [], _ => rfl
  | c :: l, h => by
    have hc := h c List.mem_cons_self
    have e : String.utf8EncodeChar c = [c.val.toUInt8] := by
      unfold String.utf8EncodeChar
      dsimp only
      have : c.val.toNat ≤ 0x7f := by show c.toNat ≤ 127; omega
      rw [if_pos this]
      rfl
    rw [List.flatMap_cons, List.map_append, utf8_ascii l fun x hx => h x (List.mem_cons_of_mem _ hx), e]
    have : c.val.toUInt8.toNat = c.toNat := by
      show c.val.toUInt8.toNat = c.val.toNat
      rw [UInt32.toNat_toUInt8]
      have : c.val.toNat < 128 := hc
      omega
    simp only [List.map_cons, List.map_nil, List.cons_append, List.nil_append, this]

theorem hasher_ascii {s : String} (h : ∀ c ∈ s.toList, c.toNat < 128) :
    hasher s = s.toList.foldl (fun h c => Nat.xor h c.toNat * 0x100000001B3 % 2 ^ 64) 0xCBF29CE484222325 := by
  have e : s.toByteArray.data.toList = s.toList.flatMap String.utf8EncodeChar := by
    rw [← String.utf8Encode_toList]
    simp [List.utf8Encode]
  unfold hasher
  rw [e]
  have := utf8_ascii s.toList h
  have f : ∀ (l : List UInt8) (m : List Char) (a : Nat), l.map UInt8.toNat = m.map Char.toNat →
      l.foldl (fun h c => Nat.xor h c.toNat * 0x100000001B3 % 2 ^ 64) a = m.foldl (fun h c => Nat.xor h c.toNat * 0x100000001B3 % 2 ^ 64) a := by
    intro l
    induction l with
    | nil => intro m a h; simp at h; simp [h]
    | cons x l ih =>
      intro m a h
      cases m with
      | nil => simp at h
      | cons y m =>
        simp only [List.map_cons, List.cons.injEq] at h
        rw [List.foldl_cons, List.foldl_cons, h.1]
        exact ih m _ h.2
  exact f _ _ _ this

theorem foldl_hash_lt (l : List Char) (a : Nat) (h : a < 2 ^ 64) :
    l.foldl (fun h c => Nat.xor h c.toNat * 0x100000001B3 % 2 ^ 64) a < 2 ^ 64 := by
  induction l generalizing a with
  | nil => exact h
  | cons c l ih => exact ih _ (Nat.mod_lt _ (by norm_num))

/-- A number of a list of hexadecimal digits. -/
theorem parse16_digits {n : Nat} : ∀ (k : Nat) (l : List Nat), l.length = k → (∀ i, i < k → l.getD i 0 = n / 16 ^ (k - 1 - i) % 16) →
    Wtns.parse16 l = n % 16 ^ k := by
  have aux : ∀ (l : List Nat) (a : Nat), l.foldl (fun r d => 16 * r + d) a = 16 ^ l.length * a + Wtns.parse16 l := by
    intro l
    induction l with
    | nil => intro a; simp [Wtns.parse16]
    | cons x l ih =>
      intro a
      unfold Wtns.parse16
      rw [List.foldl_cons, List.foldl_cons, ih, ih (16 * 0 + x), List.length_cons, pow_succ]
      ring
  intro k
  induction k with
  | zero =>
    intro l h _
    rw [List.length_eq_zero_iff] at h
    subst h
    simp [Wtns.parse16, Nat.mod_one]
  | succ k ih =>
    intro l h hd
    cases l with
    | nil => simp at h
    | cons x l =>
      have hx := hd 0 (by omega)
      have := ih l (by simpa using h) (fun i hi => by
        have := hd (i + 1) (by omega)
        rw [List.getD_cons_succ] at this
        rw [this]
        congr 3; omega)
      have e : Wtns.parse16 (x :: l) = 16 ^ l.length * x + Wtns.parse16 l := by
        conv_lhs => unfold Wtns.parse16
        rw [List.foldl_cons, aux]; simp
      simp only [List.getD_cons_zero, Nat.add_sub_cancel, Nat.sub_zero] at hx
      rw [e, this, show l.length = k by simpa using h, hx, pow_succ, Nat.mod_mul]
      ring

theorem getD_take {l : List Nat} {k i : Nat} (h : i < k) : (l.take k).getD i 0 = l.getD i 0 := by
  rw [List.getD_eq_getElem?_getD, List.getD_eq_getElem?_getD, List.getElem?_take_of_lt h]

theorem getD_drop (l : List Nat) (k i : Nat) : (l.drop k).getD i 0 = l.getD (k + i) 0 := by
  rw [List.getD_eq_getElem?_getD, List.getD_eq_getElem?_getD, List.getElem?_drop]

theorem hash_halves {s : String} (h : ∀ c ∈ s.toList, c.toNat < 128) :
    hMSB s = hasher s / 2 ^ 32 ∧ hLSB s = hasher s % 2 ^ 32 ∧ hasher s < 2 ^ 64 := by
  have hl : hasher s < 2 ^ 64 := by rw [hasher_ascii h]; exact foldl_hash_lt _ _ (by norm_num)
  have hh : fnvHash s = List.replicate (16 - (Wtns.hex (hasher s)).length) 0 ++ Wtns.hex (hasher s) := by
    unfold fnvHash; rw [hasher_ascii h]
  have hlen : (Wtns.hex (hasher s)).length ≤ 16 := (hex_len (by norm_num)).2 (by norm_num at hl ⊢; exact hl)
  have hg : ∀ i, i < 16 → (fnvHash s).getD i 0 = hasher s / 16 ^ (15 - i) % 16 := by
    intro i hi
    rw [hh, hex_get hlen hi]
  have hfl : (fnvHash s).length = 16 := by rw [hh]; simp; omega
  refine ⟨?_, ?_, hl⟩
  · unfold hMSB
    rw [parse16_digits (n := hasher s / 2 ^ 32) 8 _ (by simp [hfl])]
    · rw [Nat.mod_eq_of_lt]
      rw [show (16 : Nat) ^ 8 = 2 ^ 32 by norm_num]
      omega
    · intro i hi
      rw [getD_take hi, hg i (by omega), Nat.div_div_eq_div_mul]
      congr 2
      rw [show (2 : Nat) ^ 32 = 16 ^ 8 by norm_num, ← pow_add]
      congr 1; omega
  · unfold hLSB
    rw [parse16_digits (n := hasher s) 8 _ (by simp [hfl])]
    · norm_num
    · intro i hi
      rw [getD_take hi, getD_drop, hg (8 + i) (by omega)]
      congr 3; omega

theorem hash_whole {s : String} (h : ∀ c ∈ s.toList, c.toNat < 128) : hMSB s * 2 ^ 32 + hLSB s = hasher s := by
  obtain ⟨h1, h2, _⟩ := hash_halves h
  rw [h1, h2]; omega

/-! ## The shared memory -/

theorem load_words {b : Bytes} {a v : Nat} : ∀ k, (∀ j, j < k → load b (a + 4 * j) 4 = Wtns.word j v) → load b a (4 * k) = v % 2 ^ (32 * k)
  | 0, _ => by simp [load, Nat.mod_one]
  | k + 1, h => by
    have e1 : (256 : Nat) ^ (4 * k) = 2 ^ (32 * k) := by rw [show 256 = 2 ^ 8 from rfl, ← pow_mul]; congr 1; ring
    rw [show 4 * (k + 1) = 4 * k + 4 by ring, load_add, load_words k fun j hj => h j (by omega), h k (by omega), e1, Nat.mul_add, pow_add, Nat.mod_mul]
    rfl

section
variable {p : Prod} (hp : Sizes p)
include hp

theorem readShared_eq {b : Bytes} (hb : p.shared + 4 * p.n32 ≤ 2 ^ 32) {j : Nat} (hj : j < p.n32) :
    readShared p b j = Wtns.word j (load b p.shared (4 * p.n32)) := by
  unfold readShared
  rw [Nat.mod_eq_of_lt (a := j * 4) (by omega), Nat.mod_eq_of_lt (by omega), Nat.mul_comm, load_word b p.shared hj]

theorem words_eq {b : Bytes} (hb : p.shared + 4 * p.n32 ≤ 2 ^ 32) :
    words p b = (List.range p.n32).map fun j => Wtns.word j (load b p.shared (4 * p.n32)) := by
  unfold words
  refine List.map_congr_left fun j hj => ?_
  exact readShared_eq hp hb (List.mem_range.1 hj)

theorem writeNumber_spec {b : Bytes} {v : Nat} (hb : p.shared + 4 * p.n32 ≤ 2 ^ 32) (hv : v < 2 ^ (32 * p.n32)) :
    load (writeNumber p b v) p.shared (4 * p.n32) = v ∧
      ∀ x, (x < p.shared ∨ p.shared + 4 * p.n32 ≤ x) → writeNumber p b v x = b x := by
  have key : ∀ k, k ≤ p.n32 → (∀ j, j < k → load ((List.range k).foldl (fun b j => writeShared p b j ((Wtns.inputWords v p.n32).getD j 0)) b)
        (p.shared + 4 * j) 4 = Wtns.word j v) ∧
      ∀ x, (x < p.shared ∨ p.shared + 4 * k ≤ x) → (List.range k).foldl (fun b j => writeShared p b j ((Wtns.inputWords v p.n32).getD j 0)) b x = b x := by
    intro k
    induction k with
    | zero => intro _; exact ⟨fun j hj => by omega, fun x _ => rfl⟩
    | succ k ih =>
      intro hk
      obtain ⟨h1, h2⟩ := ih (by omega)
      rw [List.range_succ, List.foldl_append]
      simp only [List.foldl_cons, List.foldl_nil]
      have ea : (p.shared + k * 4 % 2 ^ 32) % 2 ^ 32 = p.shared + 4 * k := by
        rw [Nat.mod_eq_of_lt (a := k * 4) (by omega), Nat.mod_eq_of_lt (by omega)]; ring
      have ew : (Wtns.inputWords v p.n32).getD k 0 = Wtns.word k v := by
        rw [Wtns.inputWords_eq hv, List.getD_eq_getElem _ _ (by simpa using hk)]; simp
      unfold writeShared
      rw [ea, ew]
      refine ⟨fun j hj => ?_, fun x hx => ?_⟩
      · by_cases hjk : j = k
        · subst hjk
          rw [load_store, Nat.mod_eq_of_lt]
          unfold Wtns.word
          exact lt_of_lt_of_le (Nat.mod_lt _ (by norm_num)) (by norm_num)
        · rw [load_store_out (by omega)]
          have := h1 j (by omega)
          unfold writeShared at this
          exact this
      · rw [store_out (by omega)]
        have := h2 x (by omega)
        unfold writeShared at this
        exact this
  obtain ⟨h1, h2⟩ := key p.n32 le_rfl
  refine ⟨?_, h2⟩
  have := load_words p.n32 h1
  unfold writeNumber
  rw [this, Nat.mod_eq_of_lt hv]

end

/-! ## The table of inputs -/

/-- Memory holds the prime, the table `t` and the witness list, and the set map is zero. -/
structure Ready (p : Prod) (t : List Slot) (b : Bytes) : Prop where
  prime : load b p.rawPrime (4 * p.n32) = p.q
  long : SharedLong p b
  slots : ∀ (i : Nat) e, t[i]? = some e →
    load b (p.hashmap + 16 * i) 8 = e.hash ∧ load b (p.hashmap + 16 * i + 8) 4 = e.start ∧ load b (p.hashmap + 16 * i + 12) 4 = e.size
  unset : ∀ x, p.setMap ≤ x → x < p.witList → b x % 256 = 0
  wit : ∀ (i : Nat) s, p.wit[i]? = some s → load b (p.witList + 4 * i) 4 = s

theorem Ready.of_eq {p : Prod} {t : List Slot} {b b' : Bytes} (h : Ready p t b) (ht : t.length = p.tab) (hl : SharedLong p b')
    (he : ∀ x, (p.rawPrime ≤ x ∧ x < p.shared - 8) ∨ (p.hashmap ≤ x ∧ x < p.counter) ∨ (p.setMap ≤ x ∧ x < p.sigFree) → b' x = b x) :
    Ready p t b' := by
  obtain ⟨b1, b2, b3, b4, b5, b6, b7, b8, b9, b10, b11, b12, b13, b14, b15, b16⟩ := layout p
  refine ⟨?_, hl, fun i e hi => ?_, fun x h1 h2 => ?_, fun i s hi => ?_⟩
  · rw [load_congr fun x h1 h2 => he x (by omega)]; exact h.prime
  · have := (List.getElem?_eq_some_iff.1 hi).1
    rw [load_congr fun x h1 h2 => he x (by omega), load_congr (a := p.hashmap + 16 * i + 8) fun x h1 h2 => he x (by omega),
      load_congr (a := p.hashmap + 16 * i + 12) fun x h1 h2 => he x (by omega)]
    exact h.slots i e hi
  · rw [he x (by omega)]; exact h.unset x h1 h2
  · have := (List.getElem?_eq_some_iff.1 hi).1
    rw [load_congr fun x h1 h2 => he x (by omega)]; exact h.wit i s hi

section
variable {p : Prod} {t : List Slot} {b : Bytes} (hr : Ready p t b) (ht : t.length = p.tab) {m : Nat} (hm : p.tab = 2 ^ m)
  (hv : p.varStack < 2 ^ 32)
include hr ht hm hv

theorem mapLoop_eq (h ini : Nat) : ∀ (f i : Nat), i < p.tab →
    (∀ pos, searchW t h ini f i = .ok pos → mapLoop p b h ini f i = p.hashmap + 16 * pos ∧ pos < p.tab) ∧
      (searchW t h ini f i = .error .notFound → mapLoop p b h ini f i = 0)
  | 0, i, _ => ⟨fun pos h => by simp [searchW] at h, fun h => by simp [searchW] at h⟩
  | f + 1, i, hi => by
    obtain ⟨b1, b2, b3, b4, b5, b6, b7, b8, b9, b10, b11, b12, b13, b14, b15, b16⟩ := layout p
    have hg : t[i]? = some t[i] := List.getElem?_eq_getElem (by omega)
    obtain ⟨s1, _, _⟩ := hr.slots i _ hg
    have ea : (p.hashmap + i * 16 % 2 ^ 32) % 2 ^ 32 = p.hashmap + 16 * i := by
      rw [Nat.mod_eq_of_lt (a := i * 16) (by omega), Nat.mod_eq_of_lt (by omega)]; ring
    have hn : Nat.land (i + 1) (p.tab - 1) < p.tab := by
      rw [HashMap.land_mask hm]; exact Nat.mod_lt _ (by omega)
    have ih := mapLoop_eq h ini f _ hn
    simp only [searchW, mapLoop, hg, ea, s1, ht]
    split
    · refine ⟨fun pos hp => ?_, fun hp => by cases hp⟩
      cases hp
      exact ⟨rfl, hi⟩
    · split
      · exact ⟨fun pos hp => (by cases hp), fun _ => rfl⟩
      · split
        · exact ⟨fun pos hp => (by cases hp), fun _ => rfl⟩
        · exact ih

theorem mapPos_ok {h pos : Nat} (hf : findW t h = .ok pos) : mapPos p b h = p.hashmap + 16 * pos ∧ pos < p.tab := by
  have h0 : Nat.land (h % 2 ^ 32) (p.tab - 1) < p.tab := by
    rw [HashMap.land_mask hm]; exact Nat.mod_lt _ (by rw [hm]; positivity)
  unfold findW at hf
  rw [ht] at hf
  exact (mapLoop_eq hr ht hm hv h _ _ _ h0).1 pos hf

theorem mapPos_none {h : Nat} (hf : findW t h = .error .notFound) : mapPos p b h = 0 := by
  have h0 : Nat.land (h % 2 ^ 32) (p.tab - 1) < p.tab := by
    rw [HashMap.land_mask hm]; exact Nat.mod_lt _ (by rw [hm]; positivity)
  unfold findW at hf
  rw [ht] at hf
  exact (mapLoop_eq hr ht hm hv h _ _ _ h0).2 hf

end

/-! ## Setting inputs -/

/-- What is assumed of the layout and the table. -/
structure Env (p : Prod) (t : List Slot) : Prop where
  sizes : Sizes p
  len : t.length = p.tab
  pow : ∃ m, p.tab = 2 ^ m
  top : p.varStack < 2 ^ 32
  room : p.outs + 1 + p.ins ≤ p.signals

/-- The address of a signal. -/
def at_ (p : Prod) (s : Nat) : Nat := p.sigMem + p.elb * s

section
variable {p : Prod} {t : List Slot} (en : Env p t)
include en

theorem Env.sigAddr {s : Nat} (h : s < p.signals) : p.sigAddr s = at_ p s ∧ at_ p s + p.elb ≤ p.compFree ∧ p.sigMem ≤ at_ p s := by
  obtain ⟨b1, b2, b3, b4, b5, b6, b7, b8, b9, b10, b11, b12, b13, b14, b15, b16⟩ := layout p
  have hv := en.top
  have : p.elb * s + p.elb ≤ p.elb * p.signals := by
    rw [← Nat.mul_succ]; exact Nat.mul_le_mul_left _ h
  unfold at_
  refine ⟨?_, by omega, by omega⟩
  unfold Prod.sigAddr
  rw [Nat.mul_comm s, Nat.mod_eq_of_lt (a := p.elb * s) (by omega), Nat.mod_eq_of_lt (by omega)]
  omega

theorem Env.apart {s s' : Nat} (h : s ≠ s') : at_ p s + p.elb ≤ at_ p s' ∨ at_ p s' + p.elb ≤ at_ p s := by
  unfold at_
  rcases Nat.lt_or_gt_of_ne h with h | h
  · left
    have : p.elb * (s + 1) ≤ p.elb * s' := Nat.mul_le_mul_left _ h
    rw [Nat.mul_succ] at this
    omega
  · right
    have : p.elb * (s' + 1) ≤ p.elb * s := Nat.mul_le_mul_left _ h
    rw [Nat.mul_succ] at this
    omega

theorem isSet_zero {b : Bytes} (hr : Ready p t b) {k : Nat} (hk : k < p.ins) : isSet p b k = 0 := by
  obtain ⟨b1, b2, b3, b4, b5, b6, b7, b8, b9, b10, b11, b12, b13, b14, b15, b16⟩ := layout p
  have hv := en.top
  unfold isSet
  rw [Nat.mod_eq_of_lt (by omega)]
  have := load_of_digits (b := b) (a := p.setMap + k) (k := 4) (v := 0) fun i hi => by
    rw [hr.unset _ (by omega) (by omega)]; simp
  simpa using this

omit en in
theorem wrap_sub {a o : Nat} (h1 : o ≤ a) (h2 : a < 2 ^ 32) : (a + (2 ^ 32 - o)) % 2 ^ 32 = a - o := by
  generalize 2 ^ 32 = w at *
  have : a + (w - o) = (a - o) + w := by omega
  rw [this, Nat.add_mod_right, Nat.mod_eq_of_lt (by omega)]

/-- `setInputSignal` puts the number of the shared memory at the signal, counts, and runs when it was the last. -/
theorem setInputSignal_spec (c : Circuit) {b : Bytes} {runs : List Bytes} (hr : Ready p t b) {ns v hm hl pos k : Nat} {e : Slot}
    (hns : load b p.counter 4 = ns + 1) (hv : load b p.shared (4 * p.n32) = v) (hlt : v < p.q)
    (hf : findW t (hm * 2 ^ 32 + hl) = .ok pos) (he : t[pos]? = some e) (hk : k < e.size)
    (h1 : p.outs + 1 ≤ e.start + k) (h2 : e.start + k < p.outs + 1 + p.ins) :
    ∃ b', setInputSignal p c ⟨b, runs⟩ hm hl k = (if ns = 0 then runMain p c ⟨b', runs⟩ else .ok ⟨b', runs⟩) ∧
      Ready p t b' ∧ load b' p.counter 4 = ns ∧ Is p.q (elAt p.q b' (at_ p (e.start + k))) v ∧
      ∀ x, (p.rawPrime ≤ x ∧ x < p.shared - 8) ∨ (p.hashmap ≤ x ∧ x < p.counter) ∨
          (p.setMap ≤ x ∧ (x < at_ p (e.start + k) ∨ at_ p (e.start + k) + p.elb ≤ x)) → b' x = b x := by
  obtain ⟨b1, b2, b3, b4, b5, b6, b7, b8, b9, b10, b11, b12, b13, b14, b15, b16⟩ := layout p
  obtain ⟨m, hpow⟩ := en.pow
  have htop := en.top
  have hroom := en.room
  have hev := en.sizes.even
  have hsc := en.sizes.scratch
  obtain ⟨a1, a2, a3⟩ := en.sigAddr (s := e.start + k) (by omega)
  obtain ⟨m1, m2⟩ := mapPos_ok hr en.len hpow htop hf
  obtain ⟨s1, s2, s3⟩ := hr.slots pos e he
  have hel := en.sizes.elb
  have hsig : p.signals ≤ p.elb * p.signals := Nat.le_mul_of_pos_left _ (by omega)
  obtain ⟨q1, q2, q3⟩ := putShared_spec en.sizes (b := b) (a := at_ p (e.start + k)) (v := v) (by omega) hr.long
    (by rw [show 8 * n64 p.q = 4 * p.n32 by omega]; exact hv) hlt
  have hnl : ns < 2 ^ 32 := by
    have := load_lt b p.counter 4
    rw [hns] at this
    omega
  refine ⟨store (putShared p b (at_ p (e.start + k))) p.counter 4 ns, ?_, ?_, ?_, ?_, fun x hx => ?_⟩
  · unfold setInputSignal
    dsimp only
    rw [m1, s2, s3, hns, Nat.mod_eq_of_lt (a := e.start + k) (by omega), a1]
    have e1 := wrap_sub (a := e.start + k) (o := p.outs + 1) h1 (by omega)
    rw [e1, isSet_zero en hr (by omega), if_neg (by omega), if_neg (by omega), if_neg (by omega), if_neg (by simp), Nat.add_sub_cancel]
  · refine hr.of_eq en.len ?_ fun x hx => ?_
    · unfold SharedLong
      rw [load_store_out (by omega)]
      exact q2
    · rw [store_out (by omega), q3 x (by omega)]
  · rw [load_store, Nat.mod_eq_of_lt (by omega)]
  · have : elAt p.q (store (putShared p b (at_ p (e.start + k))) p.counter 4 ns) (at_ p (e.start + k)) =
        elAt p.q (putShared p b (at_ p (e.start + k))) (at_ p (e.start + k)) :=
      elAt_congr fun x g1 g2 => store_out (by omega)
    rw [this]
    exact q1
  · rw [store_out (by omega), q3 x (by omega)]

/-- What has been done: the pairs of signals and numbers set so far, from memory `b0` on. -/
def Done (p : Prod) (t : List Slot) (b0 : Bytes) (done : List (Nat × Int)) (b : Bytes) : Prop :=
  Ready p t b ∧ load b p.counter 4 + done.length = p.ins ∧ (∀ r ∈ done, Is p.q (elAt p.q b (at_ p r.1)) r.2) ∧
    ∀ x, (p.rawPrime ≤ x ∧ x < p.shared - 8) ∨ (p.hashmap ≤ x ∧ x < p.counter) ∨ p.setMap ≤ x →
      (∀ r ∈ done, x < at_ p r.1 ∨ at_ p r.1 + p.elb ≤ x) → b x = b0 x

omit en in
theorem Done.ready {b0 : Bytes} {done : List (Nat × Int)} {b : Bytes} (h : Done p t b0 done b) : Ready p t b := h.1

omit en in
theorem Done.left {b0 : Bytes} {done : List (Nat × Int)} {b : Bytes} (h : Done p t b0 done b) : load b p.counter 4 + done.length = p.ins := h.2.1

omit en in
theorem Done.set {b0 : Bytes} {done : List (Nat × Int)} {b : Bytes} (h : Done p t b0 done b) :
    ∀ r ∈ done, Is p.q (elAt p.q b (at_ p r.1)) r.2 := h.2.2.1

omit en in
theorem Done.same {b0 : Bytes} {done : List (Nat × Int)} {b : Bytes} (h : Done p t b0 done b) :
    ∀ x, (p.rawPrime ≤ x ∧ x < p.shared - 8) ∨ (p.hashmap ≤ x ∧ x < p.counter) ∨ p.setMap ≤ x →
      (∀ r ∈ done, x < at_ p r.1 ∨ at_ p r.1 + p.elb ≤ x) → b x = b0 x := h.2.2.2

/-- The values of one name. -/
theorem setValues_spec (c : Circuit) {name : String} {b0 : Bytes} {runs : List Bytes} {pos : Nat} {e : Slot}
    (hf : findW t (hMSB name * 2 ^ 32 + hLSB name) = .ok pos) (he : t[pos]? = some e) (hn1 : p.outs + 1 ≤ e.start) :
    ∀ (vs : List Int) (i : Nat) (b : Bytes) (done : List (Nat × Int)), Done p t b0 done b → (∀ v ∈ vs, 0 ≤ v ∧ v < p.q) → i + vs.length ≤ e.size →
      e.start + i + vs.length ≤ p.outs + 1 + p.ins → (∀ r ∈ done, ¬ (e.start + i ≤ r.1 ∧ r.1 < e.start + i + vs.length)) →
      done.length + vs.length ≤ p.ins →
      ∃ b', Done p t b0 (done ++ vs.zipIdx.map fun r => (e.start + i + r.2, r.1)) b' ∧
        setValues p c name i vs ⟨b, runs⟩ =
          (if vs ≠ [] ∧ done.length + vs.length = p.ins then runMain p c ⟨b', runs⟩ else .ok ⟨b', runs⟩)
  | [], i, b, done, hd, _, _, _, _, _ => ⟨b, by simpa using hd, by simp [setValues]⟩
  | v :: vs, i, b, done, hd, hv, hi, hin, hne, hl => by
    obtain ⟨b1, b2, b3, b4, b5, b6, b7, b8, b9, b10, b11, b12, b13, b14, b15, b16⟩ := layout p
    have htop := en.top
    have hev := en.sizes.even
    have hsc := en.sizes.scratch
    have hroom := en.room
    simp only [List.length_cons] at hi hin hne hl
    obtain ⟨v1, v2⟩ := hv v List.mem_cons_self
    have hvn : v.toNat < p.q := by omega
    have hq : p.q < 2 ^ (32 * p.n32) := by
      have := en.sizes.lt_R
      unfold Frg.R at this
      rwa [show 32 * p.n32 = 64 * n64 p.q by omega]
    obtain ⟨w1, w2⟩ := writeNumber_spec en.sizes (b := b) (v := v.toNat) (by omega) (by omega)
    have hr : Ready p t (writeNumber p b v.toNat) := by
      refine hd.ready.of_eq en.len ?_ fun x hx => w2 x (by omega)
      have : load (writeNumber p b v.toNat) (p.shared - 4) 4 = load b (p.shared - 4) 4 := load_congr fun x g1 g2 => w2 x (by omega)
      unfold SharedLong
      rw [this]
      exact hd.ready.long
    have hleft := hd.left
    obtain ⟨ns, hns⟩ : ∃ ns, load b p.counter 4 = ns + 1 := ⟨load b p.counter 4 - 1, by omega⟩
    have hns' : load (writeNumber p b v.toNat) p.counter 4 = ns + 1 := by
      rw [← hns]; exact load_congr fun x g1 g2 => w2 x (by omega)
    obtain ⟨b', e1, r', l', i', f'⟩ := setInputSignal_spec en c (runs := runs) hr (ns := ns) hns' w1 hvn hf he (k := i) (by omega) (by omega) (by omega)
    have hcast : ((v.toNat : Nat) : Int) = v := Int.toNat_of_nonneg v1
    rw [hcast] at i'
    have hd' : Done p t b0 (done ++ [(e.start + i, v)]) b' := by
      refine ⟨r', ?_, ?_, ?_⟩
      · rw [l']; simp only [List.length_append, List.length_cons, List.length_nil]; omega
      · intro r hr
        rcases List.mem_append.1 hr with hr | hr
        · have hne' := hne r hr
          have hrp : p.sigMem ≤ at_ p r.1 := by unfold at_; omega
          have := en.apart (s := r.1) (s' := e.start + i) (by omega)
          have hel := en.sizes.elb
          have : elAt p.q b' (at_ p r.1) = elAt p.q b (at_ p r.1) := elAt_congr fun x g1 g2 => by rw [f' x (by omega), w2 x (by omega)]
          rw [this]
          exact hd.set r hr
        · simp only [List.mem_singleton] at hr
          rw [hr]; exact i'
      · intro x hx hall
        have := hall (e.start + i, v) (by simp)
        dsimp only at this
        rw [f' x (by omega), w2 x (by omega)]
        exact hd.same x hx fun r hr => hall r (by simp [hr])
    obtain ⟨b'', hd'', e''⟩ := setValues_spec c hf he hn1 vs (i + 1) b' (done ++ [(e.start + i, v)]) hd'
      (fun w hw => hv w (List.mem_cons_of_mem _ hw)) (by omega) (by omega) (by
        intro r hr
        rcases List.mem_append.1 hr with hr | hr
        · have := hne r hr; omega
        · simp only [List.mem_singleton] at hr
          rw [hr]; dsimp only; omega) (by simp only [List.length_append, List.length_cons, List.length_nil]; omega)
    refine ⟨b'', ?_, ?_⟩
    · have : (done ++ (v :: vs).zipIdx.map fun r => (e.start + i + r.2, r.1)) =
          (done ++ [(e.start + i, v)]) ++ vs.zipIdx.map fun r => (e.start + (i + 1) + r.2, r.1) := by
        rw [List.zipIdx_cons, List.append_assoc, List.map_cons]
        congr 2
        rw [List.zipIdx_succ, List.map_map]
        refine List.map_congr_left fun r _ => ?_
        simp only [Function.comp]
        congr 1
        omega
      rw [this]; exact hd''
    · rw [setValues]
      rw [e1]
      have hlen : (done ++ [(e.start + i, v)]).length = done.length + 1 := by simp
      rw [hlen] at e''
      by_cases h0 : ns = 0
      · have hvs : vs = [] := List.eq_nil_of_length_eq_zero (by omega)
        subst hvs
        simp only [setValues, List.length_nil, List.length_cons, ne_eq, not_true_eq_false, false_and, if_false, Except.ok.injEq, State.mk.injEq,
          and_true] at e''
        rw [if_pos h0, if_pos ⟨by simp, by simp only [List.length_cons, List.length_nil]; omega⟩, e'']
        cases hrun : runMain p c ⟨b'', runs⟩ <;> simp [setValues]
      · rw [if_neg h0]
        dsimp only
        rw [e'']
        simp only [List.length_cons, ne_eq, reduceCtorEq, not_false_eq_true, true_and]
        have h1 : vs ≠ [] ∨ ¬ done.length + 1 + vs.length = p.ins := by
          by_cases h : vs = []
          · right; subst h; simp only [List.length_nil]; omega
          · left; exact h
        by_cases h2 : done.length + 1 + vs.length = p.ins
        · rw [if_pos ⟨by tauto, h2⟩, if_pos (by omega)]
        · rw [if_neg (by tauto), if_neg (by omega)]

/-- An input in the table with its values. -/
structure Known (p : Prod) (t : List Slot) (r : Info × List Int) : Prop where
  found : ∃ pos h, findW t (hMSB r.1.name * 2 ^ 32 + hLSB r.1.name) = .ok pos ∧ t[pos]? = some ⟨h, r.1.start, r.1.size⟩
  len : r.2.length = r.1.size
  range : ∀ v ∈ r.2, 0 ≤ v ∧ v < p.q
  low : p.outs + 1 ≤ r.1.start
  high : r.1.start + r.1.size ≤ p.outs + 1 + p.ins

/-- The signals given and their values. -/
def flat (given : List (Info × List Int)) : List (Nat × Int) := given.flatMap fun r => r.2.zipIdx.map fun x => (r.1.start + x.2, x.1)

/-- The names with their values. -/
def names (given : List (Info × List Int)) : List (String × List Int) := given.map fun r => (r.1.name, r.2)

omit en in
theorem length_flat (given : List (Info × List Int)) : (flat given).length = (given.map fun r => r.2.length).sum := by
  unfold flat
  rw [List.length_flatMap]
  congr 1
  refine List.map_congr_left fun r _ => ?_
  simp

omit en in
theorem flat_cons (r : Info × List Int) (given : List (Info × List Int)) :
    flat (r :: given) = (r.2.zipIdx.map fun x => (r.1.start + x.2, x.1)) ++ flat given := by unfold flat; rw [List.flatMap_cons]

omit en in
theorem mem_flat {given : List (Info × List Int)} {x : Nat × Int} :
    x ∈ flat given ↔ ∃ r ∈ given, ∃ k, r.2[k]? = some x.2 ∧ x.1 = r.1.start + k := by
  unfold flat
  simp only [List.mem_flatMap, List.mem_map]
  constructor
  · rintro ⟨r, hr, y, hy, rfl⟩
    exact ⟨r, hr, y.2, (List.mem_zipIdx_iff_getElem?).1 hy, rfl⟩
  · rintro ⟨r, hr, k, h1, h2⟩
    exact ⟨r, hr, (x.2, k), (List.mem_zipIdx_iff_getElem?).2 h1, by rw [← h2]⟩

theorem setName_eq (c : Circuit) {b : Bytes} {runs : List Bytes} (hr : Ready p t b) {r : Info × List Int} (hk : Known p t r) :
    setName p c ⟨b, runs⟩ (r.1.name, r.2) = setValues p c r.1.name 0 r.2 ⟨b, runs⟩ := by
  obtain ⟨b1, b2, b3, b4, b5, b6, b7, b8, b9, b10, b11, b12, b13, b14, b15, b16⟩ := layout p
  obtain ⟨pos, h, hf, he⟩ := hk.found
  obtain ⟨m, hpow⟩ := en.pow
  obtain ⟨m1, m2⟩ := mapPos_ok hr en.len hpow en.top hf
  obtain ⟨_, _, s3⟩ := hr.slots pos _ he
  have hel := en.sizes.elb
  have hsig : 8 * p.signals ≤ p.elb * p.signals := Nat.mul_le_mul_right _ (by omega)
  have h1 := hk.high
  have h2 := en.room
  have h3 := en.top
  have h4 := hk.len
  have h5 : 8 * p.signals < 2 ^ 32 := by
    generalize p.elb * p.signals = z at b9 hsig
    omega
  clear b9
  have hs : getInputSignalSize p b (hMSB r.1.name) (hLSB r.1.name) = r.1.size := by
    unfold getInputSignalSize
    rw [m1, s3]
    unfold signed
    rw [if_pos (by show r.1.size < 2 ^ 31; omega)]
  unfold setName
  dsimp only
  rw [hs, if_neg (by omega), if_neg (by omega), if_neg (by omega)]

/-- Names without values change nothing. -/
theorem setNames_empty (c : Circuit) {b : Bytes} {runs : List Bytes} (hr : Ready p t b) :
    ∀ (given : List (Info × List Int)), (∀ r ∈ given, Known p t r) → (flat given).length = 0 → setNames p c (names given) ⟨b, runs⟩ = .ok ⟨b, runs⟩
  | [], _, _ => rfl
  | r :: given, hk, h0 => by
    rw [flat_cons, List.length_append] at h0
    have hr2 : r.2 = [] := by
      have : r.2.length = 0 := by
        have : (r.2.zipIdx.map fun x => (r.1.start + x.2, x.1)).length = r.2.length := by simp
        omega
      exact List.eq_nil_of_length_eq_zero this
    have e := setName_eq en c (runs := runs) hr (hk r List.mem_cons_self)
    have ih := setNames_empty c (runs := runs) hr given (fun x hx => hk x (List.mem_cons_of_mem _ hx)) (by omega)
    unfold names at *
    rw [List.map_cons, setNames, e]
    have : setValues p c r.1.name 0 r.2 ⟨b, runs⟩ = .ok ⟨b, runs⟩ := by rw [hr2, setValues]
    rw [this]
    exact ih

/-- All names: the circuit runs once, after the last value. -/
theorem setNames_spec (c : Circuit) {b0 : Bytes} {runs : List Bytes}
    (hrun : ∀ st st', runMain p c st = .ok st' → Ready p t st.mem → Ready p t st'.mem) :
    ∀ (given : List (Info × List Int)) (b : Bytes) (done : List (Nat × Int)), (∀ r ∈ given, Known p t r) →
      given.Pairwise (fun r r' => ∀ k, r.1.start ≤ k → k < r.1.start + r.1.size → ¬ (r'.1.start ≤ k ∧ k < r'.1.start + r'.1.size)) →
      (∀ x ∈ done, ∀ r ∈ given, ¬ (r.1.start ≤ x.1 ∧ x.1 < r.1.start + r.1.size)) →
      Done p t b0 done b → done.length + (flat given).length = p.ins → 0 < (flat given).length →
      ∃ b', Done p t b0 (done ++ flat given) b' ∧ setNames p c (names given) ⟨b, runs⟩ = runMain p c ⟨b', runs⟩
  | [], b, done, _, _, _, _, _, h0 => by simp [flat] at h0
  | r :: given, b, done, hk, hpw, hdone, hd, hlen, hpos => by
    obtain ⟨hp1, hp2⟩ := List.pairwise_cons.1 hpw
    have hkr := hk r List.mem_cons_self
    have hkg : ∀ x ∈ given, Known p t x := fun x hx => hk x (List.mem_cons_of_mem _ hx)
    have hlr := hkr.len
    have hhi := hkr.high
    rw [flat_cons, List.length_append, List.length_map, List.length_zipIdx] at hlen hpos
    obtain ⟨pos, h, hf, he⟩ := hkr.found
    obtain ⟨b', hd', e'⟩ := setValues_spec en c (runs := runs) hf he hkr.low r.2 0 b done hd hkr.range (by simp only; omega) (by simp only; omega)
      (by
        intro x hx
        have := hdone x hx r List.mem_cons_self
        simp only
        omega) (by omega)
    simp only [Nat.add_zero] at hd' e'
    have e := setName_eq en c (runs := runs) hd.ready hkr
    have en' : names (r :: given) = (r.1.name, r.2) :: names given := rfl
    rw [en', setNames, e, e']
    by_cases hg : (flat given).length = 0
    · have hfe : flat given = [] := List.eq_nil_of_length_eq_zero hg
      refine ⟨b', by rw [flat_cons, hfe, List.append_nil]; exact hd', ?_⟩
      have hne : r.2 ≠ [] := by
        intro h
        rw [h] at hpos
        simp only [List.length_nil] at hpos
        omega
      rw [if_pos ⟨hne, by omega⟩]
      cases hrm : runMain p c ⟨b', runs⟩ with
      | error x => rfl
      | ok st =>
        have := hrun _ _ hrm hd'.ready
        exact setNames_empty en c this given hkg hg
    · rw [if_neg (by omega)]
      dsimp only
      have hd'' : ∀ x ∈ done ++ r.2.zipIdx.map (fun x => (r.1.start + x.2, x.1)), ∀ r' ∈ given,
          ¬ (r'.1.start ≤ x.1 ∧ x.1 < r'.1.start + r'.1.size) := by
        intro x hx r' hr'
        rcases List.mem_append.1 hx with hx | hx
        · exact hdone x hx r' (List.mem_cons_of_mem _ hr')
        · obtain ⟨y, hy, rfl⟩ := List.mem_map.1 hx
          have := (List.mem_zipIdx_iff_getElem?).1 hy
          have := (List.getElem?_eq_some_iff.1 this).1
          exact hp1 r' hr' _ (by simp only; omega) (by simp only; omega)
      have ih := setNames_spec c (runs := runs) hrun given b' _ hkg hp2 hd'' hd' (by
        rw [List.length_append, List.length_map, List.length_zipIdx]; omega) (by omega)
      obtain ⟨b'', h1, h2⟩ := ih
      refine ⟨b'', ?_, h2⟩
      rw [flat_cons, ← List.append_assoc]
      exact h1

/-! ## The whole computation -/

omit en in
theorem zeroWords_spec (b : Bytes) (a : Nat) : ∀ k, (∀ x, a ≤ x → x < a + 4 * k → zeroWords b a k x = 0) ∧
    ∀ x, (x < a ∨ a + 4 * k ≤ x) → zeroWords b a k x = b x
  | 0 => ⟨fun x h1 h2 => by omega, fun x _ => rfl⟩
  | k + 1 => by
    obtain ⟨h1, h2⟩ := zeroWords_spec b a k
    unfold zeroWords
    refine ⟨fun x g1 g2 => ?_, fun x hx => ?_⟩
    · by_cases h : a + 4 * k ≤ x
      · rw [store_in h (by omega)]; simp
      · rw [store_out (by omega)]; exact h1 x g1 (by omega)
    · rw [store_out (by omega)]; exact h2 x (by omega)

/-- Memory when `create` is called. -/
theorem initWrites_spec {b : Bytes} (hr : Ready p t b) : Ready p t (initWrites p b) ∧ load (initWrites p b) p.counter 4 = p.ins ∧
    load (initWrites p b) p.compFree 4 = p.compTree ∧
    ∀ x, (x < p.counter ∨ (p.witList ≤ x ∧ x < p.compFree) ∨ p.compTree ≤ x) → initWrites p b x = b x := by
  obtain ⟨b1, b2, b3, b4, b5, b6, b7, b8, b9, b10, b11, b12, b13, b14, b15, b16⟩ := layout p
  have h3 := en.top
  obtain ⟨z1, z2⟩ := zeroWords_spec (store b p.counter 4 p.ins) p.setMap p.ins
  have he : ∀ x, (x < p.counter ∨ (p.witList ≤ x ∧ x < p.compFree) ∨ p.compTree ≤ x) → initWrites p b x = b x := by
    intro x hx
    unfold initWrites
    rw [store_out (by omega), z2 x (by omega), store_out (by omega)]
  have hsc := en.sizes.scratch
  refine ⟨⟨?_, ?_, fun i e hi => ?_, fun x g1 g2 => ?_, fun i s hi => ?_⟩, ?_, ?_, he⟩
  · rw [← hr.prime]; exact load_congr fun x g1 g2 => he x (by omega)
  · have := hr.long
    unfold SharedLong at *
    rw [← this]; exact load_congr fun x g1 g2 => he x (by omega)
  · have := (List.getElem?_eq_some_iff.1 hi).1
    have hl := en.len
    obtain ⟨s1, s2, s3⟩ := hr.slots i e hi
    exact ⟨by rw [← s1]; exact load_congr fun x g1 g2 => he x (by omega), by rw [← s2]; exact load_congr fun x g1 g2 => he x (by omega),
      by rw [← s3]; exact load_congr fun x g1 g2 => he x (by omega)⟩
  · unfold initWrites
    rw [store_out (by omega), z1 x g1 (by omega)]
  · have := (List.getElem?_eq_some_iff.1 hi).1
    rw [← hr.wit i s hi]; exact load_congr fun x g1 g2 => he x (by omega)
  · have : load (initWrites p b) p.counter 4 = load (store b p.counter 4 p.ins) p.counter 4 := load_congr fun x g1 g2 => by
      unfold initWrites
      rw [store_out (by omega), z2 x (by omega)]
    rw [this, load_store, Nat.mod_eq_of_lt (by omega)]
  · unfold initWrites
    rw [load_store, Nat.mod_eq_of_lt (by omega)]

/-- The code of the circuit leaves alone what the exported functions need: bytes from the prime to the signals are unchanged but for the
shared element, which stays a long number. -/
def Kept (p : Prod) (b b' : Bytes) : Prop :=
  (∀ x, (p.rawPrime ≤ x ∧ x < p.shared - 8) ∨ (p.hashmap ≤ x ∧ x < p.sigMem) → b' x = b x) ∧
    load b' (p.shared - 4) 4 = load b (p.shared - 4) 4

theorem Kept.ready {b b' : Bytes} (h : Kept p b b') (hr : Ready p t b) : Ready p t b' ∧ load b' p.counter 4 = load b p.counter 4 := by
  obtain ⟨b1, b2, b3, b4, b5, b6, b7, b8, b9, b10, b11, b12, b13, b14, b15, b16⟩ := layout p
  refine ⟨hr.of_eq en.len ?_ fun x hx => h.1 x (by omega), load_congr fun x g1 g2 => h.1 x (by omega)⟩
  have := hr.long
  unfold SharedLong at *
  rw [h.2]; exact this

/-- `_doCalculateWitness`. -/
theorem calculate_spec (c : Circuit) {b b1 : Bytes} (hr : Ready p t b)
    (hcreate : c.create (initWrites p b) (p.sigMem + 1 * (p.n32 + 2) * 4) = .ok b1) (hk1 : Kept p (initWrites p b) b1)
    (hrun : ∀ m, Ready p t m → Kept p m (c.run m p.compTree).1)
    {given : List (Info × List Int)} (hk : ∀ r ∈ given, Known p t r)
    (hpw : given.Pairwise (fun r r' => ∀ k, r.1.start ≤ k → k < r.1.start + r.1.size → ¬ (r'.1.start ≤ k ∧ k < r'.1.start + r'.1.size)))
    (hlen : (flat given).length = p.ins) :
    ∃ m, Done p t b1 (flat given) m ∧ calculate p c b (names given) = runMain p c ⟨m, []⟩ := by
  obtain ⟨i1, i2, i3, i4⟩ := initWrites_spec en hr
  obtain ⟨k1, k2⟩ := hk1.ready en i1
  have hrun' : ∀ st st', runMain p c st = .ok st' → Ready p t st.mem → Ready p t st'.mem := by
    intro st st' h hr
    have := (hrun st.mem hr).ready en hr
    unfold runMain at h
    dsimp only at h
    split at h
    · cases h
    · cases h; exact this.1
  have hd0 : Done p t b1 [] b1 := ⟨k1, by rw [k2, i2]; rfl, fun r h => (by cases h), fun x _ _ => rfl⟩
  have hsum : ((names given).map fun i => i.2.length).sum = p.ins := by
    rw [← hlen, length_flat]; unfold names; rw [List.map_map]; rfl
  unfold calculate initCircuit
  rw [hcreate]
  dsimp only
  by_cases h0 : p.ins = 0
  · have hfe : flat given = [] := List.eq_nil_of_length_eq_zero (by omega)
    refine ⟨b1, by rw [hfe]; exact hd0, ?_⟩
    rw [if_pos h0]
    cases hrm : runMain p c ⟨b1, []⟩ with
    | error x => rfl
    | ok st =>
      have := hrun' _ _ hrm k1
      dsimp only
      rw [show st = ⟨st.mem, st.runs⟩ from rfl, setNames_empty en c this given hk (by omega)]
      dsimp only
      rw [hsum, if_neg (by omega)]
  · obtain ⟨m, hm1, hm2⟩ := setNames_spec en c (runs := []) hrun' given b1 [] hk hpw (fun x hx => by cases hx) hd0 (by simpa using hlen) (by omega)
    refine ⟨m, by simpa using hm1, ?_⟩
    rw [if_neg h0]
    dsimp only
    rw [hm2]
    cases hrm : runMain p c ⟨m, []⟩ with
    | error x => rfl
    | ok st =>
      dsimp only
      rw [hsum, if_neg (by omega)]

/-! ## The witness -/

theorem getWitness_spec {b : Bytes} (hr : Ready p t b) {i s : Nat} {v : Int} (hs : p.wit[i]? = some s) (hss : s < p.signals)
    (hv : Is p.q (elAt p.q b (at_ p s)) v) (h0 : 0 ≤ v) (h1 : v < p.q) :
    load (getWitness p b i) p.shared (4 * p.n32) = v.toNat ∧ Ready p t (getWitness p b i) ∧
      ∀ x, (x < p.shared - 8 ∨ p.shared + 4 * p.n32 ≤ x) → getWitness p b i x = b x := by
  obtain ⟨b1, b2, b3, b4, b5, b6, b7, b8, b9, b10, b11, b12, b13, b14, b15, b16⟩ := layout p
  have h3 := en.top
  have hsc := en.sizes.scratch
  have hev := en.sizes.even
  have hil := (List.getElem?_eq_some_iff.1 hs).1
  obtain ⟨a1, a2, a3⟩ := en.sigAddr hss
  obtain ⟨z1, z2, z3, z4⟩ := en.sizes.shared
  have hel := en.sizes.elb
  have ew : load b ((p.witList + i * 2 ^ 2 % 2 ^ 32) % 2 ^ 32) 4 = s := by
    have : (p.witList + i * 2 ^ 2 % 2 ^ 32) % 2 ^ 32 = p.witList + 4 * i := by
      rw [Nat.mod_eq_of_lt (a := i * 2 ^ 2) (by omega), Nat.mod_eq_of_lt (by omega)]; ring
    rw [this, hr.wit i s hs]
  have ec : elAt p.q (frCopy p b (p.shared - 8) (at_ p s)) (p.shared - 8) = elAt p.q b (at_ p s) := elAt_shift fun j hj => by
    unfold frCopy
    rw [copy_in (by omega) (by omega)]
    congr 1; omega
  have eg : getWitness p b i = setEl p.q (frCopy p b (p.shared - 8) (at_ p s)) (p.shared - 8)
      (WFr.eNormal p.q (WFr.eLong p.q (elAt p.q b (at_ p s)))) := by
    unfold getWitness
    rw [ew]
    dsimp only
    rw [a1, WFr.toLongNormal_put]
    simp only [onEls, List.foldl]
    rw [WFr.put_same, ec]
  have hl1 : (WFr.eLong p.q (elAt p.q b (at_ p s))).long = true := by
    unfold WFr.eLong; split
    · assumption
    · rfl
  have hn : (WFr.eNormal p.q (WFr.eLong p.q (elAt p.q b (at_ p s)))).long = true ∧
      (WFr.eNormal p.q (WFr.eLong p.q (elAt p.q b (at_ p s)))).mont = false := by
    unfold WFr.eNormal
    split
    · exact ⟨rfl, rfl⟩
    · rename_i h
      refine ⟨hl1, ?_⟩
      cases hm : (WFr.eLong p.q (elAt p.q b (at_ p s))).mont
      · rfl
      · exact absurd ⟨hm, hl1⟩ h
  have hi := WFr.is_eNormal en.sizes.good (WFr.is_eLong en.sizes.good hv)
  generalize WFr.eNormal p.q (WFr.eLong p.q (elAt p.q b (at_ p s))) = e at *
  have hraw : e.raw = v.toNat ∧ e.raw < p.q := by
    unfold Is at hi
    rw [if_pos hn.1, hn.2] at hi
    simp only [Bool.false_eq_true, if_false] at hi
    obtain ⟨c1, c2⟩ := hi
    have c3 : (e.raw : Int) % p.q = v % p.q := c2
    rw [Int.emod_eq_of_lt (by omega) (by omega), Int.emod_eq_of_lt h0 h1] at c3
    omega
  have heq : ∀ x, (x < p.shared - 8 ∨ p.shared + 4 * p.n32 ≤ x) → getWitness p b i x = b x := by
    intro x hx
    rw [eg, setEl_out (by omega)]
    unfold frCopy
    rw [copy_out (by omega)]
  refine ⟨?_, ?_, heq⟩
  · have h1 : load (setEl p.q (frCopy p b (p.shared - 8) (at_ p s)) (p.shared - 8) e) (p.shared - 8 + 8) (8 * n64 p.q) = e.raw % 256 ^ (8 * n64 p.q) := by
      unfold setEl; rw [load_store]
    rw [z1, R_256] at h1
    have := en.sizes.lt_R
    rw [eg, show 4 * p.n32 = 8 * n64 p.q by omega, h1, Nat.mod_eq_of_lt (by omega)]
    exact hraw.1
  · refine hr.of_eq en.len ?_ fun x hx => heq x (by omega)
    unfold SharedLong
    rw [eg, ← z3]
    exact flag_setEl _ _ hn.1 hn.2

theorem witnessWords_spec : ∀ (k i : Nat) (b : Bytes), Ready p t b → ∀ (vs : List Int), vs.length = k → i + k ≤ p.wit.length →
    (∀ (j : Nat) s v, p.wit[i + j]? = some s → vs[j]? = some v → s < p.signals ∧ Is p.q (elAt p.q b (at_ p s)) v ∧ 0 ≤ v ∧ v < p.q) →
    witnessWords p k i b = vs.map fun v => (List.range p.n32).map fun j => Wtns.word j v.toNat
  | 0, i, b, hr, vs, hl, _, _ => by
    rw [List.length_eq_zero_iff] at hl
    subst hl; rfl
  | k + 1, i, b, hr, vs, hl, hi, h => by
    obtain ⟨b1, b2, b3, b4, b5, b6, b7, b8, b9, b10, b11, b12, b13, b14, b15, b16⟩ := layout p
    have h3 := en.top
    cases vs with
    | nil => simp at hl
    | cons v vs =>
      have hs : p.wit[i]? = some p.wit[i] := List.getElem?_eq_getElem (by omega)
      obtain ⟨g1, g2, g3, g4⟩ := h 0 p.wit[i] v (by simpa using hs) rfl
      obtain ⟨w1, w2, w3⟩ := getWitness_spec en hr hs g1 g2 g3 g4
      have hel := en.sizes.elb
      have hev := en.sizes.even
      have ih := witnessWords_spec k (i + 1) (getWitness p b i) w2 vs (by simpa using hl) (by omega) (fun j s v' hs' hv' => by
        obtain ⟨c1, c2, c3⟩ := h (j + 1) s v' (by rw [show i + (j + 1) = i + 1 + j by omega]; exact hs') (by simpa using hv')
        obtain ⟨a1, a2, a3⟩ := en.sigAddr c1
        have : elAt p.q (getWitness p b i) (at_ p s) = elAt p.q b (at_ p s) := elAt_congr fun x e1 e2 => w3 x (by omega)
        rw [this]
        exact ⟨c1, c2, c3⟩)
      rw [witnessWords, ih, words_eq en.sizes (by omega), w1, List.map_cons]

end

end Verif.WMem
