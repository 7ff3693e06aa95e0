import Verif.WMemLemmas
import Verif.MappedTables

/-!
Lemmas for `Verif.WMem`: the first contents of memory.
-/

namespace Verif.WMem

set_option linter.unusedSimpArgs false
set_option linter.unusedVariables false
set_option linter.unusedSectionVars false

open Verif.Frg (El n64 R Is Plain Sh)
open Verif.Wtns (le)
open Verif.HashMap (Info Slot hasher generate)
open Verif.Mapped (Def image countDefs infoSize busStart)

/-! ## `wasm_hexa` -/

theorem get_le : ∀ (k n i : Nat), i < k → (le k n).getD i 0 = n / 256 ^ i % 256
  | 0, _, _, h => by omega
  | k + 1, n, 0, _ => by simp [le]
  | k + 1, n, i + 1, h => by
    rw [le, List.getD_cons_succ, get_le k _ i (by omega), Nat.div_div_eq_div_mul, pow_succ, Nat.mul_comm]

theorem le_range (k n : Nat) : le k n = (List.range k).map fun i => n / 256 ^ i % 256 := by
  apply List.ext_getElem
  · simp [Wtns.length_le]
  · intro i h1 h2
    rw [Wtns.length_le] at h1
    have := get_le k n i h1
    rw [List.getD_eq_getElem _ _ (by rwa [Wtns.length_le])] at this
    rw [this]; simp

theorem digits_get (n : Nat) : ∀ i, (Nat.digits 16 n).getD i 0 = n / 16 ^ i % 16 := fun i => by
  rw [Nat.getD_digits _ _ (by norm_num)]

theorem hex_len {n k : Nat} (hk : 0 < k) : (Wtns.hex n).length ≤ k ↔ n < 16 ^ k := by
  unfold Wtns.hex
  split
  · rename_i h; subst h; simp; omega
  · rw [List.length_reverse, Nat.digits_length_le_iff (by norm_num)]

theorem hex_get {n k i : Nat} (h : (Wtns.hex n).length ≤ k) (hi : i < k) :
    (List.replicate (k - (Wtns.hex n).length) 0 ++ Wtns.hex n).getD i 0 = n / 16 ^ (k - 1 - i) % 16 := by
  have hlt := (hex_len (by omega)).1 h
  by_cases h1 : i < k - (Wtns.hex n).length
  · rw [List.getD_append _ _ _ _ (by simpa using h1)]
    rw [List.getD_eq_getElem _ _ (by simpa using h1), List.getElem_replicate]
    have h2 : n < 16 ^ (Wtns.hex n).length := by
      rcases Nat.eq_zero_or_pos (Wtns.hex n).length with h0 | h0
      · unfold Wtns.hex at h0
        split at h0
        · simp at h0
        · rename_i hn
          rw [List.length_reverse, List.length_eq_zero_iff, Nat.digits_eq_nil_iff_eq_zero] at h0
          exact absurd h0 hn
      · exact (hex_len h0).1 le_rfl
    rw [Nat.div_eq_of_lt (lt_of_lt_of_le h2 (Nat.pow_le_pow_right (by norm_num) (by omega)))]
  · rw [List.getD_append_right _ _ _ _ (by simpa using h1), List.length_replicate]
    have hl : (Wtns.hex n).length ≠ 0 := by omega
    by_cases hn : n = 0
    · subst hn
      have : (Wtns.hex 0) = [0] := by unfold Wtns.hex; simp
      rw [this] at *
      have e : i - (k - [0].length) = 0 := by simp at *; omega
      rw [e]; simp
    · have e : Wtns.hex n = (Nat.digits 16 n).reverse := by unfold Wtns.hex; rw [if_neg hn]
      have el : (Wtns.hex n).length = (Nat.digits 16 n).length := by rw [e, List.length_reverse]
      rw [el] at h h1 ⊢
      rw [e, List.getD_reverse _ (by omega), digits_get]
      congr 3; omega

theorem hexa_bytes {k n : Nat} (h : ¬ 2 * k < (Wtns.hex n).length) :
    ((List.range k).map fun i => 16 * (List.replicate (2 * k - (Wtns.hex n).length) 0 ++ Wtns.hex n).getD (2 * i) 0 +
      (List.replicate (2 * k - (Wtns.hex n).length) 0 ++ Wtns.hex n).getD (2 * i + 1) 0).reverse = le k n := by
  rw [le_range]
  apply List.ext_getElem
  · simp
  · intro i h1 h2
    simp only [List.length_map, List.length_range, List.length_reverse] at h1 h2
    rw [List.getElem_reverse]
    simp only [List.length_map, List.length_range, List.getElem_map, List.getElem_range]
    rw [hex_get (by omega) (by omega), hex_get (by omega) (by omega)]
    have e1 : 2 * k - 1 - (2 * (k - 1 - i)) = 2 * i + 1 := by omega
    have e2 : 2 * k - 1 - (2 * (k - 1 - i) + 1) = 2 * i := by omega
    rw [e1, e2, pow_succ, pow_mul, show (16 : Nat) ^ 2 = 256 by norm_num, ← Nat.div_div_eq_div_mul]
    generalize n / 256 ^ i = x
    omega

theorem hexa_some {k n : Nat} {l : List Nat} (h : hexa k n = some l) : l = le k n ∧ n < 256 ^ k := by
  unfold hexa at h
  split at h
  · cases h
  · rename_i hl
    simp only [Option.some.injEq] at h
    rw [← h]
    refine ⟨hexa_bytes hl, ?_⟩
    have hk : 0 < 2 * k := by
      by_contra h0
      have : Wtns.hex n ≠ [] := by
        unfold Wtns.hex
        split
        · simp
        · rename_i hn; simpa [Nat.digits_eq_nil_iff_eq_zero] using hn
      have := List.length_pos_iff.2 this
      omega
    have := (hex_len (n := n) hk).1 (by omega)
    rwa [pow_mul] at this

theorem hexa_of_lt {k n : Nat} (hk : 0 < k) (h : n < 256 ^ k) : hexa k n = some (le k n) := by
  have : (Wtns.hex n).length ≤ 2 * k := (hex_len (by omega)).2 (by rw [pow_mul]; exact h)
  have hl : ¬ 2 * k < (Wtns.hex n).length := by omega
  unfold hexa
  rw [if_neg hl]
  exact congrArg some (hexa_bytes hl)

theorem hexa_length {k n : Nat} {l : List Nat} (h : hexa k n = some l) : l.length = k := by
  rw [(hexa_some h).1, Wtns.length_le]

/-- A number read from bytes that `wasm_hexa` wrote. -/
theorem load_hexa {b : Bytes} {a k n : Nat} {l : List Nat} (h : hexa k n = some l) (hb : ∀ i, i < k → b (a + i) = l.getD i 0) :
    load b a k = n := by
  obtain ⟨h1, h2⟩ := hexa_some h
  rw [load_of_digits (v := n), Nat.mod_eq_of_lt h2]
  intro i hi
  rw [hb i hi, h1, get_le _ _ _ hi, Nat.mod_mod]

/-! ## `gather` -/

theorem gather_length {α : Type} {f : α → Option (List Nat)} {k : Nat} (hf : ∀ x c, f x = some c → c.length = k) :
    ∀ (l : List α) (bs : List Nat), gather f l = some bs → bs.length = k * l.length
  | [], bs, h => by simp [gather] at h; simp [← h]
  | x :: xs, bs, h => by
    rw [gather] at h
    split at h
    · rename_i a r h1 h2
      simp only [Option.some.injEq] at h
      rw [← h, List.length_append, hf x a h1, gather_length hf xs r h2, List.length_cons]
      ring
    · cases h

theorem gather_get {α : Type} {f : α → Option (List Nat)} {k : Nat} (hf : ∀ x c, f x = some c → c.length = k) :
    ∀ (l : List α) (bs : List Nat), gather f l = some bs → ∀ (j : Nat) (x : α), l[j]? = some x →
      ∃ c, f x = some c ∧ ∀ i, i < k → bs.getD (k * j + i) 0 = c.getD i 0
  | [], bs, h, j, x, hx => by simp at hx
  | y :: xs, bs, h, j, x, hx => by
    rw [gather] at h
    split at h
    · rename_i a r h1 h2
      simp only [Option.some.injEq] at h
      cases j with
      | zero =>
        simp only [List.getElem?_cons_zero, Option.some.injEq] at hx
        subst hx
        refine ⟨a, h1, fun i hi => ?_⟩
        rw [← h, List.getD_append _ _ _ _ (by rw [hf _ _ h1]; omega)]
        congr 1; omega
      | succ j =>
        simp only [List.getElem?_cons_succ] at hx
        obtain ⟨c, hc, hb⟩ := gather_get hf xs r h2 j x hx
        refine ⟨c, hc, fun i hi => ?_⟩
        have e : k * (j + 1) + i = a.length + (k * j + i) := by rw [hf _ _ h1]; ring
        rw [← h, e, List.getD_append_right _ _ _ _ (by omega), Nat.add_sub_cancel_left]
        exact hb i hi
    · cases h

/-! ## Segments -/

theorem write_in {b : Bytes} {s : Nat × List Nat} {i : Nat} (h : i < s.2.length) : write b s (s.1 + i) = s.2.getD i 0 := by
  unfold write
  rw [if_pos ⟨by omega, by omega⟩, Nat.add_sub_cancel_left]

theorem write_out {b : Bytes} {s : Nat × List Nat} {x : Nat} (h : x < s.1 ∨ s.1 + s.2.length ≤ x) : write b s x = b x := if_neg (by omega)

/-- Segments in the order of their addresses. -/
def Chain (l : List (Nat × List Nat)) : Prop := l.Pairwise fun s t => s.1 + s.2.length ≤ t.1

theorem foldl_out (x : Nat) : ∀ (l : List (Nat × List Nat)) (b : Bytes), (∀ s ∈ l, x < s.1 ∨ s.1 + s.2.length ≤ x) → l.foldl write b x = b x
  | [], _, _ => rfl
  | s :: l, b, h => by
    rw [List.foldl_cons, foldl_out x l _ fun t ht => h t (List.mem_cons_of_mem _ ht), write_out (h s List.mem_cons_self)]

theorem foldl_in : ∀ (l : List (Nat × List Nat)) (b : Bytes), Chain l → ∀ s ∈ l, ∀ i, i < s.2.length → l.foldl write b (s.1 + i) = s.2.getD i 0
  | [], _, _, _, h, _, _ => by cases h
  | t :: l, b, hc, s, hs, i, hi => by
    rw [List.foldl_cons]
    rcases List.mem_cons.1 hs with rfl | hs
    · rw [foldl_out _ l _ fun u hu => ?_, write_in hi]
      have := (List.pairwise_cons.1 hc).1 u hu
      omega
    · exact foldl_in l _ (List.pairwise_cons.1 hc).2 s hs i hi

theorem mem_msgSegs : ∀ (ms : List (List Nat)) (a : Nat), ∀ s ∈ msgSegs a ms, ∃ j m, ms[j]? = some m ∧ s = (a + 240 * j, msgBytes m)
  | [], _, s, h => by cases h
  | m :: ms, a, s, h => by
    rcases List.mem_cons.1 h with rfl | h
    · exact ⟨0, m, rfl, rfl⟩
    · obtain ⟨j, m', h1, h2⟩ := mem_msgSegs ms _ s h
      exact ⟨j + 1, m', h1, by rw [h2]; congr 1; ring⟩

theorem msgSegs_mem : ∀ (ms : List (List Nat)) (a j : Nat) (m : List Nat), ms[j]? = some m → (a + 240 * j, msgBytes m) ∈ msgSegs a ms
  | [], _, j, m, h => by simp at h
  | x :: ms, a, 0, m, h => by
    simp only [List.getElem?_cons_zero, Option.some.injEq] at h
    rw [h]; exact List.mem_cons_self
  | x :: ms, a, j + 1, m, h => by
    have := msgSegs_mem ms (a + 240) j m h
    rw [msgSegs, show a + 240 * (j + 1) = a + 240 + 240 * j by ring]
    exact List.mem_cons_of_mem _ this

theorem msgBytes_length (m : List Nat) : (msgBytes m).length ≤ 240 := by
  unfold msgBytes
  split
  · simp; omega
  · simp

theorem msgSegs_in {ms : List (List Nat)} {a : Nat} {s : Nat × List Nat} (h : s ∈ msgSegs a ms) :
    a ≤ s.1 ∧ s.1 + s.2.length ≤ a + 240 * ms.length := by
  obtain ⟨j, m, h1, h2⟩ := mem_msgSegs ms a s h
  have := (List.getElem?_eq_some_iff.1 h1).1
  have := msgBytes_length m
  rw [h2]
  dsimp only
  omega

theorem chain_msgSegs : ∀ (ms : List (List Nat)) (a : Nat), Chain (msgSegs a ms)
  | [], _ => List.Pairwise.nil
  | m :: ms, a => List.pairwise_cons.2 ⟨fun s hs => by
      have := msgSegs_in hs
      have := msgBytes_length m
      dsimp only
      omega, chain_msgSegs ms _⟩

/-! ## The whole -/

theorem slotBytes_length (e : Slot) (c : List Nat) (h : slotBytes e = some c) : c.length = 16 := by
  unfold slotBytes at h
  split at h
  · rename_i x y z h1 h2 h3
    simp only [Option.some.injEq] at h
    rw [← h, List.length_append, List.length_append, hexa_length h1, hexa_length h2, hexa_length h3]
  · cases h

theorem image_length (base fb : Nat) (io : List (Option (List Def))) (buses : List (List Def)) :
    base + 4 * (image base fb io buses).length = busStart base io + buses.length * 4 + countDefs (buses.map some) * 4 + infoSize (buses.map some) := by
  have h1 := Mapped.length_infoWords fb io
  have h2 := Mapped.length_infoWords fb (buses.map some)
  unfold image busStart
  simp only [List.length_append, Mapped.length_listPtrs, Mapped.length_infoPtrs, List.length_map]
  omega

theorem constBytes_length {p : Prod} (s : Int) (c : List Nat) (h : constBytes p s = some c) : c.length = p.elb := by
  unfold constBytes at h
  dsimp only at h
  generalize (if (s.tmod p.q + p.q).tmod p.q > (p.q : Int) / 2 then (s.tmod p.q + p.q).tmod p.q - p.q else (s.tmod p.q + p.q).tmod p.q) = nn at h
  split at h
  · rename_i x y h1 h2
    simp only [Option.some.injEq] at h
    have hx : x.length = 8 := by
      split at h1
      · rw [Option.map_eq_some_iff] at h1
        obtain ⟨z, hz, rfl⟩ := h1
        rw [List.length_append, hexa_length hz]; rfl
      · simp only [Option.some.injEq] at h1
        rw [← h1]; rfl
    rw [← h, List.length_append, hx, hexa_length h2]
    unfold Prod.elb; ring
  · cases h

/-- The parts of the data. -/
structure Parts (p : Prod) where
  top : List Nat
  prime : List Nat
  table : List Slot
  map : List Nat
  wit : List Nat
  one : List Nat
  tables : List Nat
  consts : List Nat

/-- How the parts are made. -/
structure Parts.Ok {p : Prod} (d : Parts p) : Prop where
  top : hexa 4 p.varStack = some d.top
  prime : hexa (p.n32 * 4) p.q = some d.prime
  table : generate hasher p.tab p.infos p.tab = .ok d.table
  map : gather slotBytes d.table = some d.map
  wit : gather (hexa 4) p.wit = some d.wit
  one : hexa (p.n32 * 4) 1 = some d.one
  tables : gather (hexa 4) (image p.ioStart p.elb p.io p.buses) = some d.tables
  consts : gather (constBytes p) p.consts = some d.consts
  len : d.table.length = p.tab

/-- The segments of `generate_data_list`. -/
def Parts.segs {p : Prod} (d : Parts p) : List (Nat × List Nat) :=
  [(0, d.top), (p.rawPrime, d.prime), (p.shared - 8, [0, 0, 0, 0, 0, 0, 0, 0x80]), (p.hashmap, d.map), (p.witList, d.wit),
    (p.sigMem, [0, 0, 0, 0, 0, 0, 0, 0x80] ++ d.one), (p.ioStart, d.tables)] ++ (msgSegs p.msgList p.msgs ++ (msgSegs p.strList p.strs ++
    [(p.constStart, d.consts)]))

theorem segments_parts {p : Prod} {fr l : List (Nat × List Nat)} (h : segments p fr = some l)
    (hl : ∀ t, generate hasher p.tab p.infos p.tab = .ok t → t.length = p.tab) :
    ∃ d : Parts p, d.Ok ∧ l = fr ++ d.segs := by
  unfold segments at h
  split at h
  · rename_i top prime table h1 h2 h3
    split at h
    · rename_i map wit one h4 h5 h6
      split at h
      · rename_i tables consts h7 h8
        simp only [Option.some.injEq] at h
        refine ⟨⟨top, prime, table, map, wit, one, tables, consts⟩, ⟨h1, h2, h3, h4, h5, h6, h7, h8, hl _ h3⟩, ?_⟩
        rw [← h]
        simp only [Parts.segs, List.append_assoc, List.cons_append, List.nil_append]
      · cases h
    · cases h
  · cases h

/-- The order of the regions. -/
theorem layout (p : Prod) : p.rawPrime = 4 + p.frSize ∧ p.rawPrime + 4 * p.n32 + 8 = p.shared ∧ p.shared + 4 * p.n32 + 8 = p.hashmap ∧
    p.hashmap + 16 * p.tab = p.counter ∧ p.counter + 4 = p.setMap ∧ p.setMap + 4 * p.ins = p.witList ∧
    p.witList + 4 * p.wit.length = p.sigFree ∧ p.sigFree + 4 = p.sigMem ∧ p.sigMem + p.elb * p.signals = p.compFree ∧
    p.compFree + 4 = p.compTree ∧ p.compTree + 4 * p.tree = p.ioStart ∧
    p.ioStart + 4 * (image p.ioStart p.elb p.io p.buses).length = p.msgCounter ∧ p.msgCounter + 260 = p.msgList ∧
    p.msgList + 240 * p.msgs.length = p.strList ∧ p.strList + 240 * p.strs.length = p.constStart ∧
    p.constStart + p.elb * p.consts.length = p.varStack := by
  refine ⟨rfl, ?_, ?_, ?_, rfl, rfl, rfl, rfl, ?_, rfl, ?_, ?_, rfl, rfl, rfl, rfl⟩
  · unfold Prod.shared; omega
  · unfold Prod.hashmap; omega
  · unfold Prod.counter; omega
  · unfold Prod.compFree Prod.elb
    ring
  · unfold Prod.ioStart; omega
  · rw [image_length]; rfl

section
variable {p : Prod} {d : Parts p} (hd : d.Ok)
include hd

theorem Parts.Ok.lengths : d.top.length = 4 ∧ d.prime.length = 4 * p.n32 ∧ d.map.length = 16 * p.tab ∧ d.wit.length = 4 * p.wit.length ∧
    d.one.length = 4 * p.n32 ∧ d.tables.length = 4 * (image p.ioStart p.elb p.io p.buses).length ∧
    d.consts.length = p.elb * p.consts.length := by
  refine ⟨hexa_length hd.top, ?_, ?_, gather_length (fun x c h => hexa_length h) _ _ hd.wit, ?_,
    gather_length (fun x c h => hexa_length h) _ _ hd.tables, gather_length constBytes_length _ _ hd.consts⟩
  · rw [hexa_length hd.prime]; ring
  · rw [gather_length slotBytes_length _ _ hd.map, hd.len]
  · rw [hexa_length hd.one]; ring

theorem Parts.Ok.chain (hs : 0 < p.signals) : Chain d.segs := by
  obtain ⟨a1, a2, a3, a4, a5, a6, a7⟩ := hd.lengths
  obtain ⟨b1, b2, b3, b4, b5, b6, b7, b8, b9, b10, b11, b12, b13, b14, b15, b16⟩ := layout p
  have b9' : p.sigMem + p.elb ≤ p.compFree := by rw [← b9]; exact Nat.add_le_add_left (Nat.le_mul_of_pos_right _ hs) _
  have b0 : p.elb = 4 * p.n32 + 8 := by unfold Prod.elb; ring
  have hm : ∀ s ∈ msgSegs p.msgList p.msgs, p.msgList ≤ s.1 ∧ s.1 + s.2.length ≤ p.strList := by
    intro s h; have := msgSegs_in h; omega
  have ht : ∀ s ∈ msgSegs p.strList p.strs, p.strList ≤ s.1 ∧ s.1 + s.2.length ≤ p.constStart := by
    intro s h; have := msgSegs_in h; omega
  unfold Chain Parts.segs
  refine List.pairwise_append.2 ⟨?_, List.pairwise_append.2 ⟨chain_msgSegs _ _, List.pairwise_append.2 ⟨chain_msgSegs _ _, by simp, ?_⟩, ?_⟩, ?_⟩
  · simp only [List.pairwise_cons, List.mem_cons, List.not_mem_nil, or_false, forall_eq_or_imp, forall_eq, List.length_append, a1, a2, a3, a4, a5, a6,
      List.length_cons, List.length_nil]
    simp only [List.Pairwise.nil, and_true, IsEmpty.forall_iff, implies_true]
    omega
  · intro s h t h2
    have := ht s h
    simp only [List.mem_singleton] at h2
    rw [h2]; exact this.2
  · intro s h t h2
    have := hm s h
    rcases List.mem_append.1 h2 with h2 | h2
    · have := ht t h2
      omega
    · simp only [List.mem_singleton] at h2
      rw [h2]
      dsimp only
      omega
  · intro s h t h2
    have h3 : p.msgList ≤ t.1 := by
      rcases List.mem_append.1 h2 with h2 | h2
      · exact (hm t h2).1
      · rcases List.mem_append.1 h2 with h2 | h2
        · have := ht t h2
          omega
        · simp only [List.mem_singleton] at h2
          rw [h2]
          dsimp only
          omega
    have h4 : s.1 + s.2.length ≤ p.msgList := by
      simp only [List.mem_cons, List.not_mem_nil, or_false] at h
      rcases h with rfl | rfl | rfl | rfl | rfl | rfl | rfl <;>
        simp only [List.length_append, a1, a2, a3, a4, a5, a6, List.length_cons, List.length_nil] <;> omega
    omega

end

/-! ## Reading it -/

/-- What is assumed of the data of the arithmetic: it lies below the prime. -/
def FrOk (p : Prod) (fr : List (Nat × List Nat)) : Prop := ∀ s ∈ fr, s.1 + s.2.length ≤ 4 + p.frSize

section
variable {p : Prod} {fr : List (Nat × List Nat)} {b : Bytes}

theorem initial_parts (hs : 0 < p.signals) (hl : ∀ t, generate hasher p.tab p.infos p.tab = .ok t → t.length = p.tab)
    (hfr : FrOk p fr) (h : initial p fr = some b) :
    ∃ d : Parts p, d.Ok ∧ (∀ s ∈ d.segs, ∀ i, i < s.2.length → b (s.1 + i) = s.2.getD i 0) ∧
      ∀ x, p.rawPrime ≤ x → (∀ s ∈ d.segs, x < s.1 ∨ s.1 + s.2.length ≤ x) → b x = 0 := by
  unfold initial at h
  rw [Option.map_eq_some_iff] at h
  obtain ⟨l, h1, h2⟩ := h
  obtain ⟨d, hd, rfl⟩ := segments_parts h1 hl
  rw [List.foldl_append] at h2
  refine ⟨d, hd, fun s hs' i hi => ?_, fun x hx hz => ?_⟩
  · rw [← h2]
    exact foldl_in _ _ (hd.chain hs) s hs' i hi
  · rw [← h2, foldl_out _ _ _ hz, foldl_out]
    intro s hs'
    have := hfr s hs'
    unfold Prod.rawPrime at hx
    omega

theorem getD_add_append (l r : List Nat) (i : Nat) : (l ++ r).getD (l.length + i) 0 = r.getD i 0 := by
  rw [List.getD_append_right _ _ _ _ (by omega), Nat.add_sub_cancel_left]

variable {d : Parts p} (hd : d.Ok) (hb : ∀ s ∈ d.segs, ∀ i, i < s.2.length → b (s.1 + i) = s.2.getD i 0)
include hd hb

theorem read_top : load b 0 4 = p.varStack :=
  load_hexa hd.top fun i hi => hb (0, d.top) (by simp [Parts.segs]) i (by rw [hd.lengths.1]; exact hi)

theorem read_prime : load b p.rawPrime (4 * p.n32) = p.q := by
  rw [Nat.mul_comm]
  exact load_hexa hd.prime fun i hi => hb (p.rawPrime, d.prime) (by simp [Parts.segs]) i (by rw [hd.lengths.2.1]; omega)

theorem read_shared (h8 : 8 ≤ p.shared) : SharedLong p b := by
  have h : ∀ i, i < 4 → b (p.shared - 4 + i) = ([0, 0, 0, 0x80] : List Nat).getD i 0 := by
    intro i hi
    have := hb (p.shared - 8, [0, 0, 0, 0, 0, 0, 0, 0x80]) (by simp [Parts.segs]) (4 + i) (by simp; omega)
    dsimp only at this
    rw [show p.shared - 4 + i = p.shared - 8 + (4 + i) by omega, this]
    exact getD_add_append [0, 0, 0, 0] [0, 0, 0, 0x80] i
  unfold SharedLong
  exact load_hexa (n := 2 ^ 31) (k := 4) (l := [0, 0, 0, 0x80]) (by rw [hexa_of_lt (by decide) (by norm_num)]; rfl) h

theorem read_slot {i : Nat} {e : Slot} (h : d.table[i]? = some e) :
    load b (p.hashmap + 16 * i) 8 = e.hash ∧ load b (p.hashmap + 16 * i + 8) 4 = e.start ∧ load b (p.hashmap + 16 * i + 12) 4 = e.size := by
  obtain ⟨c, h1, h2⟩ := gather_get slotBytes_length _ _ hd.map i e h
  have hi : i < p.tab := by rw [← hd.len]; exact (List.getElem?_eq_some_iff.1 h).1
  have h3 : ∀ j, j < 16 → b (p.hashmap + 16 * i + j) = c.getD j 0 := by
    intro j hj
    have := hb (p.hashmap, d.map) (by simp [Parts.segs]) (16 * i + j) (by rw [hd.lengths.2.2.1]; omega)
    dsimp only at this
    rw [Nat.add_assoc, this, h2 j hj]
  unfold slotBytes at h1
  split at h1
  · rename_i x y z g1 g2 g3
    simp only [Option.some.injEq] at h1
    have l1 := hexa_length g1
    have l2 := hexa_length g2
    have l3 := hexa_length g3
    refine ⟨load_hexa g1 fun j hj => ?_, load_hexa g2 fun j hj => ?_, load_hexa g3 fun j hj => ?_⟩
    · rw [h3 j (by omega), ← h1, List.append_assoc, List.getD_append _ _ _ _ (by omega)]
    · rw [Nat.add_assoc, h3 (8 + j) (by omega), ← h1, List.append_assoc, ← l1, getD_add_append, List.getD_append _ _ _ _ (by omega)]
    · have : 12 = (x ++ y).length := by rw [List.length_append, l1, l2]
      rw [Nat.add_assoc, h3 (12 + j) (by omega), ← h1, this, getD_add_append]
  · cases h1

theorem read_wit {i s : Nat} (h : p.wit[i]? = some s) : load b (p.witList + 4 * i) 4 = s := by
  obtain ⟨c, h1, h2⟩ := gather_get (fun x c h => hexa_length h) _ _ hd.wit i s h
  have hi := (List.getElem?_eq_some_iff.1 h).1
  refine load_hexa h1 fun j hj => ?_
  have := hb (p.witList, d.wit) (by simp [Parts.segs]) (4 * i + j) (by rw [hd.lengths.2.2.2.1]; omega)
  rw [Nat.add_assoc, this, h2 j hj]

theorem read_table {i w : Nat} (h : (image p.ioStart p.elb p.io p.buses)[i]? = some w) : load b (p.ioStart + 4 * i) 4 = w := by
  obtain ⟨c, h1, h2⟩ := gather_get (fun x c h => hexa_length h) _ _ hd.tables i w h
  have hi := (List.getElem?_eq_some_iff.1 h).1
  refine load_hexa h1 fun j hj => ?_
  have := hb (p.ioStart, d.tables) (by simp [Parts.segs]) (4 * i + j) (by rw [hd.lengths.2.2.2.2.2.1]; omega)
  rw [Nat.add_assoc, this, h2 j hj]

theorem read_one (he : p.n32 = 2 * n64 p.q) : elAt p.q b p.sigMem = ⟨0, true, false, 1⟩ := by
  have l : d.one.length = 4 * p.n32 := hd.lengths.2.2.2.2.1
  have h : ∀ i, i < 8 + 4 * p.n32 → b (p.sigMem + i) = ([0, 0, 0, 0, 0, 0, 0, 0x80] ++ d.one).getD i 0 := fun i hi =>
    hb (p.sigMem, [0, 0, 0, 0, 0, 0, 0, 0x80] ++ d.one) (by simp [Parts.segs]) i (by rw [List.length_append, l]; simp; omega)
  have h1 : load b p.sigMem 4 = 0 :=
    load_hexa (n := 0) (k := 4) (l := [0, 0, 0, 0]) (by rw [hexa_of_lt (by decide) (by norm_num)]; rfl) fun i hi => by
      rw [h i (by omega)]
      rw [List.getD_append _ _ _ _ (by simp; omega)]
      exact List.getD_append [0, 0, 0, 0] [0, 0, 0, 0x80] 0 i (by simp; omega)
  have h2 : load b (p.sigMem + 4) 4 = 2 ^ 31 :=
    load_hexa (n := 2 ^ 31) (k := 4) (l := [0, 0, 0, 0x80]) (by rw [hexa_of_lt (by decide) (by norm_num)]; rfl) fun i hi => by
      rw [Nat.add_assoc, h (4 + i) (by omega)]
      rw [List.getD_append _ _ _ _ (by simp; omega)]
      exact getD_add_append [0, 0, 0, 0] [0, 0, 0, 0x80] i
  have h3 : load b (p.sigMem + 8) (4 * p.n32) = 1 := by
    rw [Nat.mul_comm]
    refine load_hexa hd.one fun i hi => ?_
    rw [Nat.add_assoc, h (8 + i) (by omega)]
    exact getD_add_append [0, 0, 0, 0, 0, 0, 0, 0x80] d.one i
  unfold elAt
  rw [show 8 * n64 p.q = 4 * p.n32 by rw [he]; ring, h1, h2, h3]
  rfl

theorem read_msg {j i : Nat} {m : List Nat} (h : p.msgs[j]? = some m) (hi : i < (msgBytes m).length) :
    b (p.msgList + 240 * j + i) = (msgBytes m).getD i 0 := by
  have := hb (p.msgList + 240 * j, msgBytes m) (by
    unfold Parts.segs
    exact List.mem_append_right _ (List.mem_append_left _ (msgSegs_mem _ _ _ _ h))) i hi
  exact this

theorem read_str {j i : Nat} {m : List Nat} (h : p.strs[j]? = some m) (hi : i < (msgBytes m).length) :
    b (p.strList + 240 * j + i) = (msgBytes m).getD i 0 := by
  have := hb (p.strList + 240 * j, msgBytes m) (by
    unfold Parts.segs
    exact List.mem_append_right _ (List.mem_append_right _ (List.mem_append_left _ (msgSegs_mem _ _ _ _ h)))) i hi
  exact this

theorem read_const (hq : WFr.Good p.q) (he : p.n32 = 2 * n64 p.q) {j : Nat} {s : Int} (h : p.consts[j]? = some s) :
    Is p.q (elAt p.q b (p.constStart + p.elb * j)) (s % p.q) := by
  obtain ⟨c, h1, h2⟩ := gather_get constBytes_length _ _ hd.consts j s h
  have hi := (List.getElem?_eq_some_iff.1 h).1
  have hel : p.elb = 8 + 4 * p.n32 := by unfold Prod.elb; ring
  have h3 : ∀ i, i < p.elb → b (p.constStart + p.elb * j + i) = c.getD i 0 := by
    intro i hi'
    have : p.elb * j + i < d.consts.length := by
      rw [hd.lengths.2.2.2.2.2.2]
      calc p.elb * j + i < p.elb * j + p.elb := by omega
        _ = p.elb * (j + 1) := by ring
        _ ≤ _ := Nat.mul_le_mul_left _ hi
    have := hb (p.constStart, d.consts) (by
      unfold Parts.segs
      exact List.mem_append_right _ (List.mem_append_right _ (List.mem_append_right _ (by simp)))) _ this
    dsimp only at this
    rw [Nat.add_assoc, this, h2 i hi']
  generalize p.constStart + p.elb * j = a at h3
  have hpos : (0 : Int) < p.q := by exact_mod_cast hq.pos
  have hbig : (2 : Int) ^ 63 < p.q := by exact_mod_cast hq.big
  unfold constBytes at h1
  dsimp only at h1
  have hn : (s.tmod p.q + p.q).tmod p.q = s % p.q := by
    have e : 0 ≤ s.tmod p.q + p.q := by
      have := Int.lt_tmod_of_pos s hpos
      omega
    rw [Int.tmod_eq_emod_of_nonneg e, Int.add_emod_right, Int.tmod_eq_emod]
    split
    · simp
    · rw [Int.sub_emod, Int.natCast_natAbs, abs_of_pos hpos, Int.emod_self]; simp
  rw [hn] at h1
  have n1 := Int.emod_nonneg s (ne_of_gt hpos)
  have n2 := Int.emod_lt_of_pos s hpos
  generalize s % p.q = n at *
  generalize hnn : (if n > (p.q : Int) / 2 then n - p.q else n) = nn at h1
  have c1 : nn ≡ n [ZMOD p.q] := by
    rw [← hnn]
    split
    · exact (Int.modEq_iff_dvd.2 ⟨1, by ring⟩)
    · exact Int.ModEq.refl _
  have hR : (n * R p.q).tmod p.q = n * R p.q % p.q := Int.tmod_eq_emod_of_nonneg (by positivity)
  have hr1 : 0 ≤ n * (R p.q : Int) % p.q := Int.emod_nonneg _ (ne_of_gt hpos)
  have hr2 : n * (R p.q : Int) % p.q < p.q := Int.emod_lt_of_pos _ hpos
  rw [hR] at h1
  split at h1
  · rename_i x y g1 g2
    simp only [Option.some.injEq] at h1
    have ly := hexa_length g2
    have pl : Plain p.q (n * (R p.q : Int) % p.q).toNat (n * R p.q) := by
      refine ⟨by omega, ?_⟩
      rw [Int.toNat_of_nonneg hr1]
      exact Int.mod_modEq _ _
    have lx : x.length = 8 := by
      split at g1
      · rw [Option.map_eq_some_iff] at g1
        obtain ⟨z, hz, rfl⟩ := g1
        rw [List.length_append, hexa_length hz]; rfl
      · simp only [Option.some.injEq] at g1
        rw [← g1]; rfl
    have r3 : load b (a + 8) (8 * n64 p.q) = (n * (R p.q : Int) % p.q).toNat := by
      rw [show 8 * n64 p.q = p.n32 * 4 by rw [he]; ring]
      refine load_hexa g2 fun i hi' => ?_
      rw [Nat.add_assoc, h3 (8 + i) (by omega), ← h1, ← lx, getD_add_append]
    split at g1
    · rename_i hsm
      rw [Option.map_eq_some_iff] at g1
      obtain ⟨z, hz, rfl⟩ := g1
      have lz := hexa_length hz
      have r1 : load b a 4 = (if nn < 0 then 2 ^ 32 + nn else nn).toNat := load_hexa hz fun i hi' => by
        rw [h3 i (by omega), ← h1, List.append_assoc, List.getD_append _ _ _ _ (by omega)]
      have r2 : load b (a + 4) 4 = 2 ^ 30 :=
        load_hexa (n := 2 ^ 30) (k := 4) (l := [0, 0, 0, 0x40]) (by rw [hexa_of_lt (by decide) (by norm_num)]; rfl) fun i hi' => by
          rw [Nat.add_assoc, h3 (4 + i) (by omega), ← h1, List.append_assoc, ← lz, getD_add_append, List.getD_append _ _ _ _ (by simp; omega)]
      have e : elAt p.q b a = ⟨nn, false, true, (n * (R p.q : Int) % p.q).toNat⟩ := by
        unfold elAt
        rw [r1, r2, r3]
        have : signed (if nn < 0 then 2 ^ 32 + nn else nn).toNat = nn := by
          unfold signed
          split <;> split <;> omega
        rw [this]
        rfl
      rw [e]
      unfold Is
      simp only [Bool.false_eq_true, if_false, forall_const]
      exact ⟨⟨by omega, by omega, c1⟩, pl⟩
    · simp only [Option.some.injEq] at g1
      have r2 : load b (a + 4) 4 = 3 * 2 ^ 30 :=
        load_hexa (n := 3 * 2 ^ 30) (k := 4) (l := [0, 0, 0, 0xC0]) (by rw [hexa_of_lt (by decide) (by norm_num)]; rfl) fun i hi' => by
          rw [Nat.add_assoc, h3 (4 + i) (by omega), ← h1, List.getD_append _ _ _ _ (by omega), ← g1]
          exact getD_add_append [0, 0, 0, 0] [0, 0, 0, 0xC0] i
      have e : elAt p.q b a = ⟨signed (load b a 4), true, true, (n * (R p.q : Int) % p.q).toNat⟩ := by
        unfold elAt
        rw [r2, r3]
        rfl
      rw [e]
      exact Frg.is_mont pl
  · cases h1

end

end Verif.WMem
