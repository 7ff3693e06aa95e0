import Verif.WMemRun
import Verif.Props.WFr
import Verif.Props.Wtns
import Verif.Props.JsonIn
import Verif.Props.Mapped

/-!
# C85: the memory of the WebAssembly module

The theorems speak of bytes and of 32-bit words of memory, of the numbers elements stand for (`Verif.Props.Frg.Denotes`), and of the
names and values the JavaScript program passes on.
-/

namespace Verif.Props.WMem

open Verif.WMem Verif.Frg Verif.Props.Frg Verif.HashMap Verif.Props.HashMap Verif.Inputs Verif.Props.Inputs Verif.Mapped

set_option linter.unusedSimpArgs false
set_option linter.unusedVariables false
set_option linter.unusedSectionVars false

/-- What the module is made for: a prime the arithmetic is written for (C84), with as many halves of limbs as words; the data of the field
code before the prime, with its two scratch elements from address 8 on; a table of a power of two places in which no two names of
inputs have the same hash and no hash is 0; inputs that are signals behind the outputs. -/
structure Setup (p : WMem.Prod) (fr : List (Nat × List Nat)) : Prop where
  odd : p.q % 2 = 1
  big : 2 ^ 63 < p.q
  len : Nat.log2 p.q < 2 ^ 20
  words : 32 ≤ Nat.log2 p.q % 64
  scratch : 8 + 16 * (Nat.log2 p.q / 64 + 2) ≤ 4 + p.frSize
  data : ∀ s ∈ fr, s.1 + s.2.length ≤ 4 + p.frSize
  table : ∃ m, m ≤ 32 ∧ p.tab = 2 ^ m
  starts : Starts p.infos
  hashes : (p.infos.map fun i => hasher i.name).Nodup
  zero : ∀ i ∈ p.infos, hasher i.name ≠ 0
  ascii : ∀ i ∈ p.infos, ∀ c ∈ i.name.toList, c.toNat < 128
  place : ∀ i ∈ p.infos, p.outs + 1 ≤ i.start ∧ i.start + i.size ≤ p.outs + 1 + p.ins
  room : p.outs + 1 + p.ins ≤ p.signals
  wit : ∀ s ∈ p.wit, s < p.signals

/-- The address of a signal: 8 bytes and the words of the prime for each. -/
def address (p : WMem.Prod) (s : Nat) : Nat := p.sigMem + (8 + 4 * (Nat.log2 p.q / 32 + 1)) * s

section
variable {p : WMem.Prod} {fr : List (Nat × List Nat)} (hs : Setup p fr)
include hs

theorem n32_eq : p.n32 = Nat.log2 p.q / 32 + 1 := by
  have := hs.len
  unfold WMem.Prod.n32 Wtns.n32 qbits
  split <;> omega

theorem n64_eq : n64 p.q = Nat.log2 p.q / 64 + 1 := by unfold n64 qbits; omega

theorem sizes : Sizes p where
  good := ⟨hs.odd, hs.big, hs.len⟩
  even := by rw [n32_eq hs, n64_eq hs]; have := hs.words; omega
  scratch := by rw [n64_eq hs]; have := hs.scratch; omega

theorem elb_eq : p.elb = 8 + 4 * (Nat.log2 p.q / 32 + 1) := by unfold WMem.Prod.elb; rw [n32_eq hs]; ring

theorem address_eq (s : Nat) : address p s = at_ p s := by unfold address at_; rw [elb_eq hs]

theorem length_table {t : List Slot} (h : generate hasher p.tab p.infos p.tab = .ok t) : t.length = p.tab :=
  (generate_good hs.starts le_rfl h).len

variable {b : Bytes} (hb : initial p fr = some b)
include hb

theorem parts : ∃ d : Parts p, d.Ok ∧ (∀ s ∈ d.segs, ∀ i, i < s.2.length → b (s.1 + i) = s.2.getD i 0) ∧
      ∀ x, p.rawPrime ≤ x → (∀ s ∈ d.segs, x < s.1 ∨ s.1 + s.2.length ≤ x) → b x = 0 :=
  initial_parts (by have := hs.room; omega) (fun t h => length_table hs h) hs.data hb

theorem top_lt : p.varStack < 2 ^ 32 := by
  obtain ⟨d, hd, hr, hz⟩ := parts hs hb
  rw [← read_top hd hr]
  exact load_lt _ _ _

theorem unset {x : Nat} (h1 : p.setMap ≤ x) (h2 : x < p.witList) : b x = 0 := by
  obtain ⟨d, hd, hr, hz⟩ := parts hs hb
  obtain ⟨b1, b2, b3, b4, b5, b6, b7, b8, b9, b10, b11, b12, b13, b14, b15, b16⟩ := layout p
  refine hz x (by omega) ?_
  intro s hsg
  obtain ⟨a0, a1, a2, a3, a4, a5, a6⟩ := hd.lengths
  unfold Parts.segs at hsg
  have hm : ∀ (l : List (List Nat)) (a : Nat), ∀ s ∈ msgSegs a l, a ≤ s.1 := by
    intro l
    induction l with
    | nil => intro a s h; simp [msgSegs] at h
    | cons y l ih =>
      intro a s h
      rcases List.mem_cons.1 h with rfl | h
      · exact le_rfl
      · have := ih _ s h; omega
  rcases List.mem_append.1 hsg with h | h
  · simp only [List.mem_cons, List.not_mem_nil, or_false] at h
    rcases h with rfl | rfl | rfl | rfl | rfl | rfl | rfl <;>
      simp only [List.length_append, a0, a1, a2, a3, a4, a5, List.length_cons, List.length_nil] <;> omega
  · have : p.msgList ≤ s.1 := by
      rcases List.mem_append.1 h with h | h
      · exact hm _ _ s h
      · rcases List.mem_append.1 h with h | h
        · have := hm _ _ s h; omega
        · simp only [List.mem_singleton] at h
          rw [h]; show p.msgList ≤ p.constStart; omega
    left; omega

theorem ready : ∃ t, generate hasher p.tab p.infos p.tab = .ok t ∧ Env p t ∧ Ready p t b := by
  obtain ⟨d, hd, hr, hz⟩ := parts hs hb
  obtain ⟨b1, b2, b3, b4, b5, b6, b7, b8, b9, b10, b11, b12, b13, b14, b15, b16⟩ := layout p
  obtain ⟨m, hm, hpow⟩ := hs.table
  have h8 : 8 ≤ p.shared := by omega
  exact ⟨d.table, hd.table, ⟨sizes hs, hd.len, ⟨m, hpow⟩, top_lt hs hb, hs.room⟩, ⟨read_prime hd hr, read_shared hd hr h8,
    fun i e h => read_slot hd hr h, fun x h1 h2 => by rw [unset hs hb h1 h2], fun i s h => read_wit hd hr h⟩⟩

end

/-! ### The places -/

/-- What is kept in memory: address and number of bytes.  In order: the top of the stack of variables, the scratch elements of the
arithmetic, the prime, the element for passing numbers, the table of names (16 bytes for a place), the count of inputs still to come, the
words for inputs set, the list of witness signals, a word, the signals, a word, the components, the tables of accesses, the count and the
buffer of messages, the messages, the texts, the constants. -/
def regions (p : WMem.Prod) : List (Nat × Nat) :=
  let w := Nat.log2 p.q / 32 + 1
  [(0, 4), (8, 16 * (Nat.log2 p.q / 64 + 2)), (p.rawPrime, 4 * w), (p.shared - 8, 8 + 4 * w), (p.hashmap, 16 * p.tab), (p.counter, 4),
    (p.setMap, 4 * p.ins), (p.witList, 4 * p.wit.length), (p.sigFree, 4), (p.sigMem, (8 + 4 * w) * p.signals), (p.compFree, 4),
    (p.compTree, 4 * p.tree), (p.ioStart, 4 * (image p.ioStart (8 + 4 * w) p.io p.buses).length), (p.msgCounter, 4), (p.msgCounter + 4, 256),
    (p.msgList, 240 * p.msgs.length), (p.strList, 240 * p.strs.length), (p.constStart, (8 + 4 * w) * p.consts.length)]

/-- Each place ends before the next begins, the stack of variables comes after all of them, and the memory the module asks for holds
them with ten pages for the stack. -/
theorem C85_layout {p : WMem.Prod} {fr : List (Nat × List Nat)} (hs : Setup p fr) :
    (regions p).Pairwise (fun r r' => r.1 + r.2 ≤ r'.1) ∧ (∀ r ∈ regions p, r.1 + r.2 ≤ p.varStack) ∧
      p.varStack + 10 * 65536 ≤ p.pages * 65536 := by
  obtain ⟨b1, b2, b3, b4, b5, b6, b7, b8, b9, b10, b11, b12, b13, b14, b15, b16⟩ := layout p
  have hn := n32_eq hs
  have he := elb_eq hs
  have hsc := hs.scratch
  rw [hn] at b2 b3
  rw [he] at b9 b12 b16
  generalize hli : (image p.ioStart (8 + 4 * (Nat.log2 p.q / 32 + 1)) p.io p.buses).length = li at b12
  have key : (regions p).Pairwise (fun r r' => r.1 + r.2 ≤ r'.1) ∧ ∀ r ∈ regions p, r.1 + r.2 ≤ p.varStack := by
    unfold regions
    dsimp only
    rw [hli]
    clear hli
    generalize (8 + 4 * (Nat.log2 p.q / 32 + 1)) * p.signals = x1 at *
    generalize (8 + 4 * (Nat.log2 p.q / 32 + 1)) * p.consts.length = x2 at *
    generalize Nat.log2 p.q / 32 = x3 at *
    generalize Nat.log2 p.q / 64 = x4 at *
    simp only [List.pairwise_cons, List.mem_cons, List.not_mem_nil, or_false, forall_eq_or_imp, forall_eq, false_implies, implies_true,
      List.Pairwise.nil, and_true]
    refine ⟨?_, ?_⟩ <;> (repeat' apply And.intro) <;> omega
  exact ⟨key.1, key.2, by unfold WMem.Prod.pages; omega⟩

/-! ### First contents -/

section
variable {p : WMem.Prod} {fr : List (Nat × List Nat)} (hs : Setup p fr) {b : Bytes} (hb : initial p fr = some b)
include hs hb

/-- The module begins with the top of the stack of variables in its place, the prime, the flag of long elements in the element for passing
numbers, the number 1 in signal 0, the list of witness signals, and for every constant its residue. -/
theorem C85_numbers : load b 0 4 = p.varStack ∧ load b p.rawPrime (4 * (Nat.log2 p.q / 32 + 1)) = p.q ∧
    load b (p.shared - 4) 4 = 2 ^ 31 ∧ Denotes p.q (elAt p.q b (address p 0)) 1 ∧
    (∀ (i : Nat) s, p.wit[i]? = some s → load b (p.witList + 4 * i) 4 = s) ∧
    ∀ (j : Nat) v, p.consts[j]? = some v →
      Denotes p.q (elAt p.q b (p.constStart + (8 + 4 * (Nat.log2 p.q / 32 + 1)) * j)) (v % p.q) := by
  obtain ⟨d, hd, hr, hz⟩ := parts hs hb
  obtain ⟨b1, b2, b3, b4, b5, b6, b7, b8, b9, b10, b11, b12, b13, b14, b15, b16⟩ := layout p
  have sz := sizes hs
  have hq := sz.good
  have hp := WFr.pos hq
  have hone := WFr.one_lt hq
  refine ⟨read_top hd hr, ?_, read_shared hd hr (by omega), ?_, fun i s h => read_wit hd hr h, fun j v h => ?_⟩
  · rw [← n32_eq hs]; exact read_prime hd hr
  · rw [show address p 0 = p.sigMem by unfold address; rw [Nat.mul_zero, Nat.add_zero], read_one hd hr sz.even]
    exact ⟨by omega, hone, fun h => by simp at h, fun _ _ => rfl, fun h => by simp at h⟩
  · rw [← elb_eq hs]
    exact (WFr.denotes_iff hq).2 ⟨read_const hd hr hq sz.even h, Int.emod_nonneg _ (by omega), Int.emod_lt_of_pos _ hp⟩

/-- The table of names in memory is the one the names are put into (C51): for a place, the hash in 8 bytes, the first signal and the number
of signals in 4 bytes each. -/
theorem C85_names : ∃ t, generate hasher p.tab p.infos p.tab = .ok t ∧ t.length = p.tab ∧ ∀ (i : Nat) e, t[i]? = some e →
    load b (p.hashmap + 16 * i) 8 = e.hash ∧ load b (p.hashmap + 16 * i + 8) 4 = e.start ∧ load b (p.hashmap + 16 * i + 12) 4 = e.size := by
  obtain ⟨d, hd, hr, hz⟩ := parts hs hb
  exact ⟨d.table, hd.table, hd.len, fun i e h => read_slot hd hr h⟩

/-- The tables of accesses in memory are those the code of accesses was shown right for (the hypothesis `hmem` of C66 and C76). -/
theorem C85_tables {a w : Int} (h : memOf p.ioStart (image p.ioStart (8 + 4 * (Nat.log2 p.q / 32 + 1)) p.io p.buses) a = some w) :
    0 ≤ a ∧ (load b a.toNat 4 : Int) = w := by
  obtain ⟨d, hd, hr, hz⟩ := parts hs hb
  unfold memOf at h
  split at h
  · rename_i hc
    rw [Option.map_eq_some_iff] at h
    obtain ⟨n, h1, h2⟩ := h
    rw [← elb_eq hs] at h1
    have := read_table hd hr h1
    refine ⟨by omega, ?_⟩
    rw [← h2, ← this]
    congr 2
    omega
  · cases h

/-- The messages and the texts: bytes up to a zero, at most 239 of them. -/
theorem C85_messages {a j : Nat} {m : List Nat} (h : p.msgs[j]? = some m ∧ a = p.msgList ∨ p.strs[j]? = some m ∧ a = p.strList) :
    (∀ i, i < min 239 m.length → b (a + 240 * j + i) = m.getD i 0) ∧ b (a + 240 * j + min 239 m.length) = 0 := by
  obtain ⟨d, hd, hr, hz⟩ := parts hs hb
  have key : ∀ i, i < (msgBytes m).length → b (a + 240 * j + i) = (msgBytes m).getD i 0 := by
    rcases h with ⟨h, rfl⟩ | ⟨h, rfl⟩
    · exact fun i hi => read_msg hd hr h hi
    · exact fun i hi => read_str hd hr h hi
  unfold msgBytes at key
  split at key
  · rename_i hl
    rw [Nat.min_eq_right (by omega)]
    refine ⟨fun i hi => ?_, ?_⟩
    · rw [key i (by simp; omega), List.getD_append _ _ _ _ hi]
    · rw [key _ (by simp), List.getD_append_right _ _ _ _ le_rfl]; simp
  · rename_i hl
    rw [Nat.min_eq_left (by omega)]
    have hlen : (m.take 239).length = 239 := by rw [List.length_take]; omega
    refine ⟨fun i hi => ?_, ?_⟩
    · rw [key i (by rw [List.length_append, hlen]; simp; omega), List.getD_append _ _ _ _ (by omega), getD_take hi]
    · rw [key _ (by rw [List.length_append, hlen]; simp), List.getD_append_right _ _ _ _ (by omega), hlen]; simp

end

/-! ### Reading names and numbers -/

/-- The two halves the JavaScript program makes of the hash of a name are those of the hash the compiler has put into the table. -/
theorem C85_hash {s : String} (h : ∀ c ∈ s.toList, c.toNat < 128) :
    hMSB s = hasher s / 2 ^ 32 ∧ hLSB s = hasher s % 2 ^ 32 ∧ hasher s < 2 ^ 64 := hash_halves h

example : hMSB "in" = 0x08b73807 ∧ hLSB "in" = 0xb55c4bbe := by decide +kernel

/-- What a step of the computation leaves as it was: all between the prime and the signals, but the element for passing numbers, of which
only the flags stay. -/
def Leaves (p : WMem.Prod) (b b' : Bytes) : Prop :=
  (∀ x, p.rawPrime ≤ x → x < p.sigMem → (x < p.shared - 8 ∨ p.hashmap ≤ x) → b' x = b x) ∧
    load b' (p.shared - 4) 4 = load b (p.shared - 4) 4

/-- The same without the count of inputs and the word after the list of witness signals. -/
def Intact (p : WMem.Prod) (b b' : Bytes) : Prop :=
  (∀ x, p.rawPrime ≤ x → x < p.sigFree → (x < p.shared - 8 ∨ p.hashmap ≤ x) → (x < p.counter ∨ p.setMap ≤ x) → b' x = b x) ∧
    load b' (p.shared - 4) 4 = load b (p.shared - 4) 4

theorem Leaves.intact {p : WMem.Prod} {b b' b'' : Bytes} (h : Intact p b b') (h' : Leaves p b' b'') : Intact p b b'' := by
  obtain ⟨b1, b2, b3, b4, b5, b6, b7, b8, b9, b10, b11, b12, b13, b14, b15, b16⟩ := layout p
  exact ⟨fun x h1 h2 h3 h4 => (h'.1 x h1 (by omega) h3).trans (h.1 x h1 h2 h3 h4), h'.2.trans h.2⟩

theorem Leaves.kept {p : WMem.Prod} {b b' : Bytes} (h : Leaves p b b') : Kept p b b' := by
  obtain ⟨b1, b2, b3, b4, b5, b6, b7, b8, b9, b10, b11, b12, b13, b14, b15, b16⟩ := layout p
  exact ⟨fun x hx => h.1 x (by omega) (by omega) (by omega), h.2⟩

section
variable {p : WMem.Prod} {fr : List (Nat × List Nat)} (hs : Setup p fr) {b : Bytes} (hb : initial p fr = some b)
include hs hb

theorem ready_of {m : Bytes} (hm : Intact p b m) : ∃ t, generate hasher p.tab p.infos p.tab = .ok t ∧ Env p t ∧ Ready p t m := by
  obtain ⟨t, h1, h2, h3⟩ := ready hs hb
  obtain ⟨b1, b2, b3, b4, b5, b6, b7, b8, b9, b10, b11, b12, b13, b14, b15, b16⟩ := layout p
  refine ⟨t, h1, h2, h3.of_eq h2.len ?_ fun x hx => hm.1 x (by omega) (by omega) (by omega) (by omega)⟩
  have := h3.long
  unfold SharedLong at *
  rw [hm.2, this]

theorem shared_le : p.shared + 4 * p.n32 ≤ 2 ^ 32 := by
  have := top_lt hs hb
  obtain ⟨b1, b2, b3, b4, b5, b6, b7, b8, b9, b10, b11, b12, b13, b14, b15, b16⟩ := layout p
  omega

/-- The words read after `getRawPrime` are those of the prime. -/
theorem C85_prime {m : Bytes} (hm : Intact p b m) :
    words p (getRawPrime p m) = (List.range (Nat.log2 p.q / 32 + 1)).map fun j => p.q / 2 ^ (32 * j) % 2 ^ 32 := by
  obtain ⟨t, h1, h2, h3⟩ := ready_of hs hb hm
  have hev := (sizes hs).even
  rw [words_eq (sizes hs) (shared_le hs hb), n32_eq hs]
  have e : load (getRawPrime p m) p.shared (4 * (Nat.log2 p.q / 32 + 1)) = p.q := by
    have := load_copy m p.shared p.rawPrime (k := 8 * n64 p.q) (i := 0) (l := 4 * p.n32) (by omega)
    rw [← n32_eq hs]
    unfold getRawPrime
    simp only [Nat.add_zero] at this
    rw [this]
    exact h3.prime
  rw [e]
  rfl

/-- The words read for the witness, signal by signal, are those of the numbers the signals stand for. -/
theorem C85_witness {m : Bytes} (hm : Intact p b m) {val : Nat → Nat} (hv : ∀ s ∈ p.wit, Denotes p.q (elAt p.q m (address p s)) (val s)) :
    witnessWords p p.wit.length 0 m =
      p.wit.map fun s => (List.range (Nat.log2 p.q / 32 + 1)).map fun j => val s / 2 ^ (32 * j) % 2 ^ 32 := by
  obtain ⟨t, h1, h2, h3⟩ := ready_of hs hb hm
  have hq := (sizes hs).good
  rw [witnessWords_spec h2 p.wit.length 0 m h3 (p.wit.map fun s => (val s : Int)) (by simp) (by omega) ?_, List.map_map, n32_eq hs]
  · rfl
  · intro j s v h4 h5
    rw [Nat.zero_add] at h4
    rw [List.getElem?_map, h4] at h5
    simp only [Option.map_some, Option.some.injEq] at h5
    have hmem := List.mem_of_getElem? h4
    have := (WFr.denotes_iff hq).1 (hv s hmem)
    rw [← h5, ← address_eq hs]
    exact ⟨hs.wit s hmem, this⟩

/-- **Loading the inputs.**  Values are given for names in any order, the names covering the inputs; whatever the main component creates
and computes, if it leaves the tables alone: it is started once, with every input signal standing for its value and the rest of the
signals and components as they were created; the answer is what it gives. -/
theorem C85_load (c : Circuit) {b1 : Bytes} (hc : c.create (initWrites p b) (address p 1) = .ok b1) (hk : Leaves p (initWrites p b) b1)
    (hrun : ∀ m, Leaves p m (c.run m p.compTree).1) {given : List (Info × List Int)} {cov : List (Nat × Nat)}
    (hg : ∀ r ∈ given, r.1 ∈ p.infos ∧ r.2.length = r.1.size ∧ ∀ v ∈ r.2, 0 ≤ v ∧ v < p.q)
    (hperm : (given.map fun r => (r.1.start, r.1.size)).Perm cov) (hcov : Covers (p.outs + 1) cov (p.outs + 1 + p.ins)) :
    ∃ m, (∀ r ∈ given, ∀ (k : Nat) v, r.2[k]? = some v → Denotes p.q (elAt p.q m (address p (r.1.start + k))) v) ∧
      (∀ x, p.sigMem ≤ x → (x < address p (p.outs + 1) ∨ address p (p.outs + 1 + p.ins) ≤ x) → m x = b1 x) ∧ Intact p b m ∧
      calculate p c b (given.map fun r => (r.1.name, r.2)) =
        if (c.run m p.compTree).2 = 0 then .ok ⟨(c.run m p.compTree).1, [m]⟩ else .error (.code (c.run m p.compTree).2) := by
  obtain ⟨b1', b2, b3, b4, b5, b6, b7, b8, b9, b10, b11, b12, b13, b14, b15, b16⟩ := layout p
  obtain ⟨t, h1, h2, h3⟩ := ready hs hb
  obtain ⟨mm, hm32, hpow⟩ := hs.table
  have hq := (sizes hs).good
  obtain ⟨i1, i2, i3, i4⟩ := initWrites_spec h2 h3
  obtain ⟨k1, k2⟩ := (Leaves.kept hk).ready h2 i1
  obtain ⟨c1, c2, c3⟩ := covers_disjoint hcov
  have hknown : ∀ r ∈ given, Known p t r := by
    intro r hr
    obtain ⟨g1, g2, g3⟩ := hg r hr
    obtain ⟨pos, f1, f2⟩ := C51_found_wasm_partial hpow hm32 hs.starts hs.hashes hs.zero le_rfl h1 g1
    exact ⟨⟨pos, _, by rw [hash_whole (hs.ascii _ g1)]; exact f1, f2⟩, g2, g3, (hs.place _ g1).1, (hs.place _ g1).2⟩
  have hpw : given.Pairwise (fun r r' => ∀ k, r.1.start ≤ k → k < r.1.start + r.1.size → ¬ (r'.1.start ≤ k ∧ k < r'.1.start + r'.1.size)) := by
    have : (given.map fun r => (r.1.start, r.1.size)).Pairwise (fun a b => ∀ k, a.1 ≤ k → k < a.1 + a.2 → ¬ (b.1 ≤ k ∧ k < b.1 + b.2)) :=
      hperm.symm.pairwise c1 fun h k g1 g2 g3 => h k g3.1 g3.2 ⟨g1, g2⟩
    exact List.pairwise_map.1 this
  have hlen : (flat given).length = p.ins := by
    rw [length_flat]
    have e1 : (given.map fun r => r.2.length) = (given.map fun r => (r.1.start, r.1.size)).map Prod.snd := by
      rw [List.map_map]
      refine List.map_congr_left fun r hr => ?_
      exact (hg r hr).2.1
    rw [e1, (hperm.map Prod.snd).sum_eq]
    omega
  have hc' : c.create (initWrites p b) (p.sigMem + 1 * (p.n32 + 2) * 4) = .ok b1 := by
    rw [← hc]; congr 1
    unfold address; rw [← n32_eq hs]; ring
  obtain ⟨m, hd, he⟩ := calculate_spec h2 c h3 hc' (Leaves.kept hk) (fun m _ => Leaves.kept (hrun m)) hknown hpw hlen
  refine ⟨m, ?_, ?_, ?_, ?_⟩
  · intro r hr k v hv
    rw [address_eq hs]
    obtain ⟨_, _, g3⟩ := hg r hr
    exact (WFr.denotes_iff hq).2 ⟨hd.set (r.1.start + k, v) (mem_flat.2 ⟨r, hr, k, hv, rfl⟩), g3 v (List.mem_of_getElem? hv)⟩
  · intro x hx h
    rw [address_eq hs, address_eq hs] at h
    refine hd.same x (by omega) fun r hr => ?_
    obtain ⟨y, hy, k, hv, hk⟩ := mem_flat.1 hr
    have g := hknown y hy
    have h5 := g.low
    have h6 := g.high
    have h7 := g.len
    have h8 := (List.getElem?_eq_some_iff.1 hv).1
    have m1 : p.elb * (p.outs + 1) ≤ p.elb * r.1 := Nat.mul_le_mul_left _ (by omega)
    have m2 : p.elb * (r.1 + 1) ≤ p.elb * (p.outs + 1 + p.ins) := Nat.mul_le_mul_left _ (by omega)
    rw [Nat.mul_succ] at m2
    unfold at_ at *
    omega
  · have hg1 : load m (p.shared - 4) 4 = 2 ^ 31 := hd.ready.long
    have hg2 : load b (p.shared - 4) 4 = 2 ^ 31 := h3.long
    refine ⟨fun x g1 g2 g3 g4 => ?_, by rw [hg1, hg2]⟩
    have hx : m x = b1 x := hd.same x (by omega) fun r hr => by left; unfold at_; omega
    rw [hx, hk.1 x g1 (by omega) g3]
    by_cases hz : p.setMap ≤ x ∧ x < p.witList
    · rw [unset hs hb hz.1 hz.2]
      unfold initWrites
      obtain ⟨z1, z2⟩ := zeroWords_spec (store b p.counter 4 p.ins) p.setMap p.ins
      rw [store_out (by omega), z1 x (by omega) (by omega)]
    · exact i4 x (by omega)
  · unfold names at he
    rw [he]
    unfold runMain
    dsimp only
    by_cases h0 : (c.run m p.compTree).2 = 0
    · rw [if_pos h0, if_neg (by simpa using h0)]
    · rw [if_neg h0, if_pos h0]

/-- **From the file to the signals**, for the JavaScript program: a file written after the declarations of the inputs (C83) is read, and the
main component is started once, with every input signal standing for the residue of the number its text stands for. -/
theorem C85_file (c : Circuit) {b1 : Bytes} (hc : c.create (initWrites p b) (address p 1) = .ok b1) (hk : Leaves p (initWrites p b) b1)
    (hrun : ∀ m, Leaves p m (c.run m p.compTree).1)
    {buses : List (List Inputs.Field)} {fm : List (List FData)} {F : Nat} {ds : List Decl}
    (hi : JsonIn.InputsOk buses fm F ds (p.outs + 1) p.ins) (hm : mainInputs fm F ds = .ok p.infos)
    {val : Nat → JsonIn.Sc} {o : JsonIn.JO} (ho : JsonIn.Follows buses ds (p.outs + 1) val o) {z : Nat → Int}
    (hn : "__proto__" ∉ ds.map Decl.name) (hz : ∀ s, JsonIn.jsNum (val s) = some (z s))
    (hu : ∀ l, withQualifiers fm F ds = .ok l → ∀ i ∈ l, ∀ s ∈ List.range' i.start i.size, ∀ t ∈ List.range' i.start i.size,
      JsonIn.typeofSc (val s) = JsonIn.typeofSc (val t)) :
    ∃ items m, JsonIn.jsInputs p.q (.obj o) = some items ∧
      (∀ s, p.outs + 1 ≤ s → s < p.outs + 1 + p.ins → Denotes p.q (elAt p.q m (address p s)) (z s % p.q)) ∧
      (∀ x, p.sigMem ≤ x → (x < address p (p.outs + 1) ∨ address p (p.outs + 1 + p.ins) ≤ x) → m x = b1 x) ∧ Intact p b m ∧
      calculate p c b items =
        if (c.run m p.compTree).2 = 0 then .ok ⟨(c.run m p.compTree).1, [m]⟩ else .error (.code (c.run m p.compTree).2) := by
  have hp := WFr.pos (sizes hs).good
  obtain ⟨l, items, hl, h1, h2⟩ := JsonIn.C83_js hi ho (q := p.q) hp hn hz hu
  obtain ⟨l', hl', hcv, _⟩ := withQualifiers_spec hi.map hi.identifiers ds hi.decls hi.names
  rw [hl] at hl'
  cases hl'
  have hcov := hcv _ _ hi.cover
  have hsub : ∀ i ∈ l, i ∈ p.infos := by
    unfold mainInputs at hm
    rw [hl] at hm
    simp only at hm
    split at hm
    · cases hm
    · simp only [Except.ok.injEq] at hm
      intro i him
      rw [← hm]
      simp [him]
  have hr : List.Forall₂ (fun (a : String × List Int) (i : Info) => a = (i.name, (List.range' i.start i.size).map fun s => z s % p.q))
      (l.map fun i => (i.name, (List.range' i.start i.size).map fun s => z s % p.q)) l := by
    rw [List.forall₂_map_left_iff, List.forall₂_same]
    intro i _
    rfl
  obtain ⟨x, h3, h4⟩ := List.perm_comp_forall₂ h2 hr
  have hx : items = (x.map fun i => (i, (List.range' i.start i.size).map fun s => z s % p.q)).map fun r => (r.1.name, r.2) := by
    rw [List.map_map, ← List.forall₂_eq_eq_eq, List.forall₂_map_right_iff]
    exact h3
  obtain ⟨m, g1, g2, g3, g4⟩ := C85_load hs hb c hc hk hrun
    (given := x.map fun i => (i, (List.range' i.start i.size).map fun s => z s % p.q))
    (cov := l.map fun i => (i.start, i.size)) (by
      intro r hr
      obtain ⟨i, hix, rfl⟩ := List.mem_map.1 hr
      refine ⟨hsub i (h4.mem_iff.1 hix), by simp, fun v hv => ?_⟩
      obtain ⟨s, _, rfl⟩ := List.mem_map.1 hv
      exact ⟨Int.emod_nonneg _ (by omega), Int.emod_lt_of_pos _ hp⟩) (by
      rw [List.map_map]
      exact h4.map fun i => (i.start, i.size)) hcov
  rw [← hx] at g4
  refine ⟨items, m, h1, ?_, g2, g3, g4⟩
  intro s b1 b2
  obtain ⟨n, ⟨r, hr, hk1, hk2⟩, _⟩ := hcov.unique s b1 b2
  rw [List.getElem?_map, Option.map_eq_some_iff] at hr
  obtain ⟨i, hin, rfl⟩ := hr
  simp only at hk1 hk2
  have := g1 (i, (List.range' i.start i.size).map fun s => z s % p.q)
    (List.mem_map.2 ⟨i, h4.mem_iff.2 (List.mem_of_getElem? hin), rfl⟩) (s - i.start) (z s % p.q) (by
      simp only [List.getElem?_map]
      rw [List.getElem?_range' (by omega)]
      simp only [Option.map_some, Nat.one_mul]
      rw [show i.start + (s - i.start) = s by omega])
  simp only at this
  rwa [show i.start + (s - i.start) = s by omega] at this

/-- Names and values that are refused, whatever has been set before: more or fewer values than the name has signals; and values under a
name that is none of the inputs, as long as they are fewer than 2^30.  Word 12 is the one with the flags of the first scratch element. -/
theorem C85_refused (c : Circuit) {m : Bytes} (hm : Intact p b m) (runs : List Bytes) :
    (∀ i ∈ p.infos, i.size < 2 ^ 31 → ∀ vs : List Int, vs.length ≠ i.size →
      setName p c ⟨m, runs⟩ (i.name, vs) = .error (if vs.length < i.size then .tooFew else .tooMany)) ∧
    ∀ name : String, (∀ ch ∈ name.toList, ch.toNat < 128) → hasher name ≠ 0 → (∀ i ∈ p.infos, hasher i.name ≠ hasher name) →
      load m 12 4 % 2 ^ 30 = 0 → ∀ vs : List Int, 0 < vs.length → vs.length < 2 ^ 30 → ∃ e, setName p c ⟨m, runs⟩ (name, vs) = .error e := by
  obtain ⟨t, h1, h2, h3⟩ := ready_of hs hb hm
  obtain ⟨mm, hm32, hpow⟩ := hs.table
  constructor
  · intro i hi hsz vs hvs
    obtain ⟨pos, f1, f2⟩ := C51_found_wasm_partial hpow hm32 hs.starts hs.hashes hs.zero le_rfl h1 hi
    obtain ⟨m1, m2⟩ := mapPos_ok h3 h2.len hpow h2.top f1
    obtain ⟨_, _, s3⟩ := h3.slots pos _ f2
    have e : getInputSignalSize p m (hMSB i.name) (hLSB i.name) = i.size := by
      unfold getInputSignalSize
      rw [hash_whole (hs.ascii _ hi), m1, s3]
      unfold WMem.signed
      rw [if_pos hsz]
    unfold setName
    dsimp only
    rw [e, if_neg (by omega)]
    by_cases hlt : vs.length < i.size
    · rw [if_pos (by exact_mod_cast hlt), if_pos hlt]
    · rw [if_neg (by exact_mod_cast hlt), if_pos (by omega), if_neg hlt]
  · intro name hasc h0 hno hfl vs hv1 hv2
    have hf := (C51_absent_partial hs.starts le_rfl h1 (by rw [hpow]; positivity) h0 hno).2 mm hm32 hpow
    have m1 := mapPos_none h3 h2.len hpow h2.top hf
    have hlt := load_lt m 12 4
    have e : getInputSignalSize p m (hMSB name) (hLSB name) = WMem.signed (load m 12 4) := by
      unfold getInputSignalSize
      rw [hash_whole hasc, m1]
    unfold setName
    dsimp only
    rw [e]
    unfold WMem.signed
    norm_num at hlt hfl hv2 ⊢
    generalize load m 12 4 = w at *
    split
    · split
      · exact ⟨_, rfl⟩
      · split
        · exact ⟨_, rfl⟩
        · split
          · exact ⟨_, rfl⟩
          · omega
    · split
      · exact ⟨_, rfl⟩
      · omega

/-- **Violated**: a name that is none of the inputs, with an empty array, is accepted, as long as the word at address 12 is 0, which it is
in the data of the arithmetic. -/
theorem C85_unknown_violated (c : Circuit) {m : Bytes} (hm : Intact p b m) (runs : List Bytes) (name : String)
    (hasc : ∀ ch ∈ name.toList, ch.toNat < 128) (h0 : hasher name ≠ 0) (hno : ∀ i ∈ p.infos, hasher i.name ≠ hasher name)
    (h12 : load m 12 4 = 0) : setName p c ⟨m, runs⟩ (name, []) = .ok ⟨m, runs⟩ := by
  obtain ⟨t, h1, h2, h3⟩ := ready_of hs hb hm
  obtain ⟨mm, hm32, hpow⟩ := hs.table
  have hf := (C51_absent_partial hs.starts le_rfl h1 (by rw [hpow]; positivity) h0 hno).2 mm hm32 hpow
  have m1 := mapPos_none h3 h2.len hpow h2.top hf
  have e : getInputSignalSize p m (hMSB name) (hLSB name) = 0 := by
    unfold getInputSignalSize
    rw [hash_whole hasc, m1, Nat.zero_add, h12]
    rfl
  unfold setName
  dsimp only
  rw [e]
  simp [WMem.setValues]

/-- **Violated**: values for the signals of one name are accepted again under the name of one of these signals, for nothing is
written into the words for inputs set.  With a name of two signals, its second signal's name and a third input, of which
nothing is said, the component is started with the third as it was created. -/
theorem C85_twice_violated (c : Circuit) {b1 : Bytes} (hc : c.create (initWrites p b) (address p 1) = .ok b1)
    (hk : Leaves p (initWrites p b) b1) {r x : Info} (hr : r ∈ p.infos) (hx : x ∈ p.infos) (h1 : r.size = 2) (h2 : x.size = 1)
    (h3 : x.start = r.start + 1) (h4 : p.ins = 3) (u v w : Nat) (hu : u < p.q) (hv : v < p.q) (hw : w < p.q) :
    ∃ m, Denotes p.q (elAt p.q m (address p x.start)) w ∧
      (∀ y, p.sigMem ≤ y → (y < address p r.start ∨ address p (r.start + 2) ≤ y) → m y = b1 y) ∧
      calculate p c b [(r.name, [(u : Int), v]), (x.name, [(w : Int)])] =
        if (c.run m p.compTree).2 = 0 then .ok ⟨(c.run m p.compTree).1, [m]⟩ else .error (.code (c.run m p.compTree).2) := by
  obtain ⟨b1', b2, b3, b4, b5, b6, b7, b8, b9, b10, b11, b12, b13, b14, b15, b16⟩ := layout p
  obtain ⟨t, g1, g2, g3⟩ := ready hs hb
  obtain ⟨mm, hm32, hpow⟩ := hs.table
  have hq := (sizes hs).good
  obtain ⟨i1, i2, i3, i4⟩ := initWrites_spec g2 g3
  obtain ⟨k1, k2⟩ := (Leaves.kept hk).ready g2 i1
  obtain ⟨pr, fr1, fr2⟩ := C51_found_wasm_partial hpow hm32 hs.starts hs.hashes hs.zero le_rfl g1 hr
  obtain ⟨px, fx1, fx2⟩ := C51_found_wasm_partial hpow hm32 hs.starts hs.hashes hs.zero le_rfl g1 hx
  have lr := hs.place _ hr
  have lx := hs.place _ hx
  have hd0 : Done p t b1 [] b1 := ⟨k1, by rw [k2, i2]; rfl, fun r h => (by cases h), fun x _ _ => rfl⟩
  have kr : Known p t (r, [(u : Int), v]) := ⟨⟨pr, _, by rw [hash_whole (hs.ascii _ hr)]; exact fr1, fr2⟩, by simp [h1], by
    intro y hy
    simp only [List.mem_cons, List.not_mem_nil, or_false] at hy
    rcases hy with rfl | rfl <;> omega, lr.1, lr.2⟩
  have kx : Known p t (x, [(w : Int)]) := ⟨⟨px, _, by rw [hash_whole (hs.ascii _ hx)]; exact fx1, fx2⟩, by simp [h2], by
    intro y hy
    simp only [List.mem_cons, List.not_mem_nil, or_false] at hy
    subst hy; omega, lx.1, lx.2⟩
  obtain ⟨m1, d1, e1⟩ := setValues_spec g2 c (runs := []) (by rw [hash_whole (hs.ascii _ hr)]; exact fr1) fr2 lr.1 [(u : Int), v] 0 b1 [] hd0 kr.range
    (by simp [h1]) (by simp only [List.length_cons, List.length_nil]; omega) (fun r hr => by cases hr) (by simp [h4])
  have s1 : Is p.q (elAt p.q m1 (at_ p r.start)) u := by
    have := d1.set (r.start, (u : Int)) (by simp)
    exact this
  have d1' : Done p t m1 [(r.start, (u : Int)), (r.start, (u : Int))] m1 := by
    refine ⟨d1.ready, ?_, ?_, fun _ _ _ => rfl⟩
    · have := d1.left
      simpa using this
    · intro y hy
      simp only [List.mem_cons, List.not_mem_nil, or_false, or_self] at hy
      subst hy; exact s1
  obtain ⟨m2, d2, e2⟩ := setValues_spec g2 c (runs := []) (by rw [hash_whole (hs.ascii _ hx)]; exact fx1) fx2 lx.1 [(w : Int)] 0 m1 _ d1' kx.range
    (by simp [h2]) (by simp only [List.length_cons, List.length_nil]; omega) (by
      intro y hy
      simp only [List.mem_cons, List.not_mem_nil, or_false, or_self] at hy
      subst hy
      simp only [List.length_cons, List.length_nil]
      omega) (by simp [h4])
  refine ⟨m2, ?_, ?_, ?_⟩
  · rw [address_eq hs]
    refine (WFr.denotes_iff hq).2 ⟨?_, by omega, by exact_mod_cast hw⟩
    have := d2.set (x.start, (w : Int)) (by simp)
    exact this
  · intro y hy hout
    rw [address_eq hs, address_eq hs] at hout
    have q1 : p.elb * (r.start + 1) = p.elb * r.start + p.elb := Nat.mul_succ _ _
    have q2 : p.elb * (r.start + 2) = p.elb * (r.start + 1) + p.elb := Nat.mul_succ _ _
    unfold at_ at hout
    rw [d2.same y (by omega) (by
      intro z hz
      simp only [List.zipIdx_cons, List.zipIdx_nil, List.map_cons, List.map_nil, List.cons_append, List.nil_append, List.mem_cons,
        List.not_mem_nil, or_false] at hz
      unfold at_
      rcases hz with rfl | rfl | rfl <;> simp only [h3, Nat.add_zero] <;> omega), d1.same y (by omega) (by
      intro z hz
      simp only [List.zipIdx_cons, List.zipIdx_nil, List.map_cons, List.map_nil, List.cons_append, List.nil_append, List.mem_cons,
        List.not_mem_nil, or_false] at hz
      unfold at_
      rcases hz with rfl | rfl <;> simp only [Nat.add_zero, Nat.zero_add] <;> omega)]
  · have hc' : c.create (initWrites p b) (p.sigMem + 1 * (p.n32 + 2) * 4) = .ok b1 := by
      rw [← hc]; congr 1
      unfold address; rw [← n32_eq hs]; ring
    unfold calculate initCircuit
    rw [hc']
    dsimp only
    rw [if_neg (by omega)]
    dsimp only
    unfold setNames
    rw [setName_eq g2 c k1 kr, e1, if_neg (by simp [h4])]
    dsimp only
    unfold setNames
    rw [setName_eq g2 c d1.ready kx, e2, if_pos (by simp [h4])]
    unfold runMain
    dsimp only
    by_cases h0 : (c.run m2 p.compTree).2 = 0
    · rw [if_pos h0, if_neg (by simpa using h0)]
      simp [setNames, h4]
    · rw [if_neg h0, if_pos h0]

end

/-! ### Cases -/

/-- Goldilocks; an output, an input bus `r` of two signals and an input `s`; tables, messages and constants. -/
def exP : WMem.Prod where
  q := 18446744069414584321
  frSize := 412
  outs := 1
  ins := 3
  infos := [⟨"r.x", 2, 1⟩, ⟨"r.y", 3, 1⟩, ⟨"s", 4, 1⟩, ⟨"r", 2, 2⟩]
  tab := 256
  wit := [0, 1, 2, 4]
  signals := 6
  tree := 5
  io := [none, some [⟨1, [2], 1, none⟩]]
  buses := [[⟨0, [], 1, none⟩, ⟨1, [3], 1, none⟩]]
  msgs := [[104, 105], List.replicate 300 97]
  strs := [[111, 107]]
  consts := [5, -1, 2 ^ 40, 18446744069414584321 + 2]

/-- Data of the arithmetic: some bytes below the prime. -/
def exFr : List (Nat × List Nat) := [(8, List.replicate 16 0), (100, [1, 2, 3, 4, 5, 6, 7, 8])]

theorem ex_setup : Setup exP exFr where
  odd := by decide +kernel
  big := by decide +kernel
  len := by decide +kernel
  words := by decide +kernel
  scratch := by decide +kernel
  data := by decide +kernel
  table := ⟨8, by decide, by decide⟩
  starts := by decide
  hashes := by decide +kernel
  zero := by decide +kernel
  ascii := by decide
  place := by decide
  room := by decide
  wit := by decide

/-- There is a first memory. -/
example : (initial exP exFr).isSome = true := by decide +kernel

/-- Values of it. -/
example : (initial exP exFr).map (fun b => (load b 0 4, load b exP.rawPrime 8, b (exP.msgList + 1), b (exP.msgList + 240 + 239),
    load b (exP.constStart + 16 * 1) 4, load b (exP.constStart + 16 * 1 + 4) 4)) =
    some (exP.varStack, 18446744069414584321, 105, 0, 2 ^ 32 - 1, 2 ^ 30) := by decide +kernel

/-- A main component that marks itself as created and gives its first input out. -/
def exC (p : WMem.Prod) : Circuit where
  create b _ := .ok (store b p.compTree 4 7)
  run b _ := (setEl p.q b (address p 1) (elAt p.q b (address p 2)), 0)

theorem exC_create (p : WMem.Prod) (b : Bytes) : Leaves p b (store b p.compTree 4 7) := by
  obtain ⟨b1, b2, b3, b4, b5, b6, b7, b8, b9, b10, b11, b12, b13, b14, b15, b16⟩ := layout p
  exact ⟨fun x h1 h2 h3 => store_out (by omega), load_store_out (by omega)⟩

theorem exC_run (p : WMem.Prod) (m : Bytes) : Leaves p m ((exC p).run m p.compTree).1 := by
  obtain ⟨b1, b2, b3, b4, b5, b6, b7, b8, b9, b10, b11, b12, b13, b14, b15, b16⟩ := layout p
  have ha : p.sigMem ≤ address p 1 := by unfold address; omega
  exact ⟨fun x h1 h2 h3 => setEl_out (by omega), load_congr fun x h1 h2 => setEl_out (by omega)⟩

/-- The hypotheses of `C85_load` with values for `s` and then `r`. -/
example : ∃ b, initial exP exFr = some b ∧ ∃ m,
    Denotes exP.q (elAt exP.q m (address exP 4)) 70 ∧ Denotes exP.q (elAt exP.q m (address exP 3)) (2 ^ 63) ∧
    calculate exP (exC exP) b [("s", [70]), ("r", [5, 2 ^ 63])] = .ok ⟨((exC exP).run m exP.compTree).1, [m]⟩ := by
  obtain ⟨b, hb⟩ := Option.isSome_iff_exists.1 (show (initial exP exFr).isSome = true by decide +kernel)
  refine ⟨b, hb, ?_⟩
  obtain ⟨m, h1, h2, h3, h4⟩ := C85_load ex_setup hb (exC exP) rfl (exC_create exP _) (exC_run exP)
    (given := [(⟨"s", 4, 1⟩, [70]), (⟨"r", 2, 2⟩, [5, 2 ^ 63])]) (cov := [(2, 2), (4, 1)])
    (by decide +kernel) (List.Perm.swap _ _ _) ⟨rfl, rfl, rfl⟩
  exact ⟨m, h1 _ (List.mem_cons_self) 0 70 rfl, h1 _ (List.mem_cons_of_mem _ List.mem_cons_self) 1 (2 ^ 63) rfl, h4⟩

/-- `C85_twice_violated`: `{"r": [1, 2], "r.y": 7}` starts the calculation, and `s` has no value. -/
example : ∃ b, initial exP exFr = some b ∧ ∃ m, Denotes exP.q (elAt exP.q m (address exP 3)) 7 ∧
    (∀ y, address exP 4 ≤ y → m y = store (initWrites exP b) exP.compTree 4 7 y) ∧
    calculate exP (exC exP) b [("r", [1, 2]), ("r.y", [7])] = .ok ⟨((exC exP).run m exP.compTree).1, [m]⟩ := by
  obtain ⟨b, hb⟩ := Option.isSome_iff_exists.1 (show (initial exP exFr).isSome = true by decide +kernel)
  refine ⟨b, hb, ?_⟩
  obtain ⟨m, h1, h2, h3⟩ := C85_twice_violated ex_setup hb (exC exP) rfl (exC_create exP _) (r := ⟨"r", 2, 2⟩) (x := ⟨"r.y", 3, 1⟩)
    (by decide) (by decide) rfl rfl rfl rfl 1 2 7 (by decide +kernel) (by decide +kernel) (by decide +kernel)
  have ha : exP.sigMem ≤ address exP 4 := by unfold address; omega
  exact ⟨m, h1, fun y hy => h2 y (by omega) (Or.inr hy), h3⟩

/-- `C85_unknown_violated` and `C85_refused`: a name that is none of the inputs. -/
example : ∃ b, initial exP exFr = some b ∧ load b 12 4 = 0 ∧ Intact exP b b ∧ hasher "nosuch" ≠ 0 ∧
    (∀ i ∈ exP.infos, hasher i.name ≠ hasher "nosuch") ∧ setName exP (exC exP) ⟨b, []⟩ ("nosuch", []) = .ok ⟨b, []⟩ := by
  have h : (initial exP exFr).map (fun b => load b 12 4) = some 0 := by decide +kernel
  obtain ⟨b, hb, h12⟩ := Option.map_eq_some_iff.1 h
  have hi : Intact exP b b := ⟨fun _ _ _ _ _ => rfl, rfl⟩
  have h0 : hasher "nosuch" ≠ 0 := by decide +kernel
  have hno : ∀ i ∈ exP.infos, hasher i.name ≠ hasher "nosuch" := by decide +kernel
  exact ⟨b, hb, h12, hi, h0, hno, C85_unknown_violated ex_setup hb (exC exP) hi [] "nosuch" (by decide) h0 hno h12⟩

/-- `C85_witness` and `C85_prime` on the first memory, with signal 0 as witness. -/
example : ∃ b, initial { exP with wit := [0] } exFr = some b ∧ witnessWords { exP with wit := [0] } 1 0 b = [[1, 0]] ∧
    words { exP with wit := [0] } (getRawPrime { exP with wit := [0] } b) = [1, 2 ^ 32 - 1] := by
  obtain ⟨b, hb⟩ := Option.isSome_iff_exists.1 (show (initial { exP with wit := [0] } exFr).isSome = true by decide +kernel)
  have hs : Setup { exP with wit := [0] } exFr :=
    ⟨ex_setup.odd, ex_setup.big, ex_setup.len, ex_setup.words, ex_setup.scratch, ex_setup.data, ex_setup.table, ex_setup.starts, ex_setup.hashes,
      ex_setup.zero, ex_setup.ascii, ex_setup.place, ex_setup.room, by decide⟩
  have hi : Intact { exP with wit := [0] } b b := ⟨fun _ _ _ _ _ => rfl, rfl⟩
  refine ⟨b, hb, ?_, ?_⟩
  · have := C85_witness hs hb hi (val := fun _ => 1) (by
      intro s h
      have : s = 0 := by simpa using h
      subst this
      exact (C85_numbers hs hb).2.2.2.1)
    refine Eq.trans this ?_
    decide +kernel
  · refine Eq.trans (C85_prime hs hb hi) ?_
    decide +kernel

/-- The inputs of the file of C83, `a[2][2]` and an array `r[2]` of buses. -/
def exF : WMem.Prod := { exP with outs := 0, ins := 8, infos := JsonIn.exInfos, signals := 10, wit := [0, 1, 9] }

theorem exF_setup : Setup exF exFr where
  odd := by decide +kernel
  big := by decide +kernel
  len := by decide +kernel
  words := by decide +kernel
  scratch := by decide +kernel
  data := by decide +kernel
  table := ⟨8, by decide, by decide⟩
  starts := by decide
  hashes := by decide +kernel
  zero := by decide +kernel
  ascii := by decide
  place := by decide
  room := by decide
  wit := by decide

/-- The hypotheses of `C85_file` (those on the file in `Verif.Props.JsonIn`) and `C85_witness`. -/
example : (initial exF exFr).isSome = true ∧ JsonIn.InputsOk JsonIn.exBuses JsonIn.exMap 1 JsonIn.exDecls (exF.outs + 1) exF.ins ∧
    JsonIn.Follows JsonIn.exBuses JsonIn.exDecls (exF.outs + 1) JsonIn.exVal JsonIn.exFile ∧
    mainInputs JsonIn.exMap 1 JsonIn.exDecls = .ok exF.infos :=
  ⟨by decide +kernel, JsonIn.ex_inputs, JsonIn.ex_follows, by decide +kernel⟩

end Verif.Props.WMem
