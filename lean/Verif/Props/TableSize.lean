import Verif.TableSizeLemmas
import Verif.Props.HashMap

/-!
C98: the table of inputs of a generated witness calculator has room for all of them, and every program that reads it finds them.
-/

namespace Verif.Props.TableSize

open Verif.HashMap Verif.TableSize Verif.Props.HashMap

/-- **C98 (room, partial).**  With up to `2 ^ 21` inputs there is a place for each, the size is a power of two (as the WebAssembly code
assumes when it masks), and the table is not much larger than needed.  Missing: more inputs; see `C98_room_violated`. -/
theorem C98_room_partial {L : ℝ → ℝ} (hL : Log2 L) {n : Nat} (hn : n ≤ 2 ^ 21) :
    n ≤ size L n ∧ (∃ m, 8 ≤ m ∧ m ≤ 21 ∧ size L n = 2 ^ m) ∧ size L n ≤ max 256 (2 * n) := by
  have h256 : (256 : Nat) = 2 ^ 8 := by norm_num
  have pow : ∀ c, c ≤ 21 → ∃ m, 8 ≤ m ∧ m ≤ 21 ∧ max (2 ^ c) 256 = 2 ^ m := by
    intro c hc
    rcases Nat.le_total c 8 with h | h
    · exact ⟨8, le_rfl, by omega, by rw [h256]; exact max_eq_right (Nat.pow_le_pow_right (by omega) h)⟩
    · exact ⟨c, h, hc, by rw [h256]; exact max_eq_left (Nat.pow_le_pow_right (by omega) h)⟩
  unfold size
  by_cases h0 : n = 0
  · subst h0
    rw [if_pos rfl]
    exact ⟨by omega, pow 0 (by omega), by norm_num⟩
  rw [if_neg h0, toF32_small (le_trans hn (by norm_num))]
  by_cases h1 : n = 1
  · subst h1
    have hc := ceil_le hL (n := 1) (k := 0) le_rfl (by norm_num) (by norm_num)
    refine ⟨le_trans (by norm_num) (le_max_right _ _), pow _ (by omega), ?_⟩
    have : 2 ^ ⌈L ((1 : ℕ) : ℝ)⌉.toNat ≤ 2 ^ 0 := Nat.pow_le_pow_right (by omega) hc
    exact max_le (le_trans this (by norm_num)) (le_max_left _ _)
  · obtain ⟨k, hk, hk'⟩ := bracket (n := n) (by omega)
    have hk20 : k ≤ 20 := by
      by_contra hlt
      have : 2 ^ 21 ≤ 2 ^ k := Nat.pow_le_pow_right (by omega) (by omega)
      omega
    have hge := ceil_ge hL hk20 hk hn
    have hle := ceil_le hL (n := n) (k := k + 1) (by omega) hk' (by omega)
    refine ⟨?_, pow _ (by omega), ?_⟩
    · exact le_trans hk' (le_trans (Nat.pow_le_pow_right (by omega) hge) (le_max_left _ _))
    · refine max_le (le_trans ?_ (le_max_right _ _)) (le_max_left _ _)
      have : 2 ^ ⌈L ((n : ℕ) : ℝ)⌉.toNat ≤ 2 ^ (k + 1) := Nat.pow_le_pow_right (by omega) hle
      have e : 2 ^ (k + 1) = 2 * 2 ^ k := by rw [Nat.pow_succ]; omega
      omega

/-- **C98 (found, partial).**  With up to `2 ^ 21` inputs the compiler builds the table, and the C++ calculator finds every input in it;
so does the WebAssembly calculator if no name has the hash zero (C51). -/
theorem C98_found_partial {L : ℝ → ℝ} (hL : Log2 L) (H : String → Nat) (infos : List Info) (hs : Starts infos)
    (hd : (infos.map fun i => H i.name).Nodup) (hn : infos.length ≤ 2 ^ 21) :
    ∃ t, t.length = size L infos.length ∧ (∀ fuel, size L infos.length ≤ fuel → generate H fuel infos (size L infos.length) = .ok t) ∧
      ∀ i ∈ infos, (∃ pos, findC t (H i.name) = .ok pos ∧ t[pos]? = some ⟨H i.name, i.start, i.size⟩) ∧
        ((∀ j ∈ infos, H j.name ≠ 0) → ∃ pos, findW t (H i.name) = .ok pos ∧ t[pos]? = some ⟨H i.name, i.start, i.size⟩) := by
  obtain ⟨hr, ⟨m, -, hm, hp⟩, -⟩ := C98_room_partial hL hn
  obtain ⟨t, ht, hg⟩ := (C51_builds H infos _ hs).2 hr
  exact ⟨t, ht, hg, fun i hi => ⟨C51_found hs hd le_rfl (hg _ le_rfl) hi,
    fun hz => C51_found_wasm_partial hp (by omega) hs hd hz le_rfl (hg _ le_rfl) hi⟩⟩

/-- Beyond `2 ^ 21` inputs the logarithm is rounded down to a power of two: with `2 ^ k + 1` inputs the table has `2 ^ k` places and the
compiler stops at an assertion. -/
theorem C98_room_violated {L : ℝ → ℝ} (hL : Log2 L) {k : Nat} (h : 21 ≤ k) (hk : k < 32) (H : String → Nat) (fuel : Nat) (infos : List Info)
    (hn : infos.length = 2 ^ k + 1) : generate H fuel infos (size L infos.length) = .error .assertFailed := by
  unfold generate
  rw [hn, size_over hL h hk, if_neg (by omega)]

theorem size_small {L : ℝ → ℝ} (hL : Log2 L) {n : Nat} (hn : n ≤ 256) : size L n = 256 := by
  unfold size
  split
  · norm_num
  · next h0 =>
    rw [toF32_small (le_trans hn (by norm_num))]
    have hc := ceil_le hL (n := n) (k := 8) (by omega) (by omega) (by omega)
    exact max_eq_right (Nat.pow_le_pow_right (by omega) hc)

theorem size_257 {L : ℝ → ℝ} (hL : Log2 L) : size L 257 = 512 := by
  unfold size
  rw [if_neg (by omega), toF32_small (by norm_num)]
  have h1 := ceil_ge hL (n := 257) (k := 8) (by omega) (by omega) (by omega)
  have h2 := ceil_le hL (n := 257) (k := 9) (by omega) (by omega) (by omega)
  rw [show ⌈L ((257 : ℕ) : ℝ)⌉.toNat = 9 by omega]
  norm_num

/-- **C98 (converter, partial).**  The converter of inputs for goldilocks finds the inputs of a program with up to 256 of them. -/
theorem C98_converter_partial {L : ℝ → ℝ} (hL : Log2 L) {H : String → Nat} {infos : List Info} {fuel : Nat} {t : List Slot} (hs : Starts infos)
    (hd : (infos.map fun i => H i.name).Nodup) (hn : infos.length ≤ 256) (hf : size L infos.length ≤ fuel)
    (hg : generate H fuel infos (size L infos.length) = .ok t) {i : Info} (hi : i ∈ infos) :
    ∃ pos, findJ t (H i.name) = .ok pos ∧ t[pos]? = some ⟨H i.name, i.start, i.size⟩ := by
  have hl := (generate_good hs hf hg).len
  have hsz : size L infos.length = 256 := size_small hL hn
  unfold findJ
  rw [List.take_of_length_le (by omega)]
  exact C51_found hs hd hf hg hi

/-- A program with 257 inputs `a0`, …, `a256`. -/
def many : List Info := (List.range 257).map fun k => ⟨"a" ++ Nat.repr k, k + 1, 1⟩

def lost : String := "a1"

/-- With 257 inputs the table has 512 places, of which the converter reads the first 256: there is an input that the calculator finds and
the converter does not. -/
theorem C98_converter_violated {L : ℝ → ℝ} (hL : Log2 L) : Starts many ∧ (many.map fun i => hasher i.name).Nodup ∧
    ∃ t, generate hasher 512 many (size L many.length) = .ok t ∧ (∃ i ∈ many, i.name = lost ∧
      (∃ pos, findC t (hasher lost) = .ok pos ∧ t[pos]? = some ⟨hasher lost, i.start, i.size⟩) ∧ findJ t (hasher lost) = .error .notFound) := by
  have hs : Starts many := by decide +kernel
  have hd : (many.map fun i => hasher i.name).Nodup := by decide +kernel
  refine ⟨hs, hd, ?_⟩
  have hsz : size L many.length = 512 := by
    rw [show many.length = 257 from (List.length_map _).trans List.length_range]
    exact size_257 hL
  rw [hsz]
  obtain ⟨t, -, ht⟩ := (C51_builds hasher many 512 hs).2 (by decide +kernel)
  have hg := ht 512 le_rfl
  refine ⟨t, hg, ⟨lost, 2, 1⟩, by decide +kernel, rfl, C51_found hs hd le_rfl hg (i := ⟨lost, 2, 1⟩) (by decide +kernel), ?_⟩
  have h : (match generate hasher 512 many 512 with
      | .ok t => decide (findJ t (hasher lost) = .error .notFound)
      | .error _ => false) = true := by decide +kernel
  rw [hg] at h
  exact of_decide_eq_true h

/-! Cases meeting the hypotheses: there is such a logarithm, and the three inputs of C51. -/

example : ∃ L, Log2 L ∧ size L 257 = 512 ∧ size L (2 ^ 21 + 1) = 2 ^ 21 := by
  obtain ⟨L, hL⟩ := exists_log2
  exact ⟨L, hL, size_257 hL, size_over hL (by omega) (by omega)⟩

example : Starts infos3 ∧ (infos3.map fun i => H3 i.name).Nodup ∧ infos3.length ≤ 256 := by decide

example : ∃ infos : List Info, Starts infos ∧ infos.length = 2 ^ 21 + 1 :=
  ⟨List.replicate (2 ^ 21 + 1) ⟨"a", 1, 1⟩, fun i hi => by rw [List.eq_of_mem_replicate hi]; decide, List.length_replicate⟩

end Verif.Props.TableSize
