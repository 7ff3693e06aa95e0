import Verif.HashMapLemmas

/-!
C51: the table of main inputs in the generated calculators. Everything is proved for every hash
function `H`, so in particular for `hasher`.
-/

namespace Verif.Props.HashMap

open Verif.HashMap

/-- Signal 0 is the constant one, so main inputs start at 1 or later. -/
def Starts (infos : List Info) : Prop := ∀ i ∈ infos, i.start ≠ 0

instance (infos : List Info) : Decidable (Starts infos) := by unfold Starts; infer_instance

/-- The construction ends with a table of the given size exactly if there are at most that many
inputs. -/
theorem C51_builds (H : String → Nat) (infos : List Info) (size : Nat) (hs : Starts infos) :
    (∃ t : List Slot, t.length = size ∧ ∀ fuel, size ≤ fuel → generate H fuel infos size = .ok t) ↔
      infos.length ≤ size := by
  constructor
  · rintro ⟨t, _, ht⟩
    by_contra hlt
    have := ht size le_rfl
    simp [generate, hlt] at this
  · intro hle
    obtain ⟨t, ht, g⟩ := insertAll_good (H := H) infos [] _ (good_empty H size) hs (by simpa using hle)
    exact ⟨t, g.len, fun fuel hf => by simp only [generate, hle, if_true]; exact ht fuel hf⟩

theorem generate_good {H : String → Nat} {infos : List Info} {size fuel : Nat} {t : List Slot}
    (hs : Starts infos) (hf : size ≤ fuel) (hg : generate H fuel infos size = .ok t) :
    Good H size infos t := by
  unfold generate at hg
  split at hg
  · rename_i hle
    obtain ⟨t', ht', g⟩ := insertAll_good (H := H) infos [] _ (good_empty H size) hs
      (by simpa using hle)
    rw [ht' fuel hf] at hg
    cases hg
    simpa using g
  · cases hg

theorem generate_uniq {H : String → Nat} {infos : List Info} {size fuel : Nat} {t : List Slot}
    (hd : (infos.map fun i => H i.name).Nodup) (hg : generate H fuel infos size = .ok t) :
    Uniq t := by
  unfold generate at hg
  split at hg
  · refine uniq_insertAll infos [] _ _ hg ?_ (by simpa using hd) ?_
    · intro q e hq h0
      rw [List.getElem?_replicate] at hq
      split at hq
      · cases hq; exact absurd rfl h0
      · cases hq
    · intro q q' e e' hq _ h0
      rw [List.getElem?_replicate] at hq
      split at hq
      · cases hq; exact absurd rfl h0
      · cases hq
  · cases hg

/-- Every input is found by the C++ lookup under the hash of its name, with its start and size, if the
hashes of the names are distinct. -/
theorem C51_found {H : String → Nat} {infos : List Info} {size fuel : Nat} {t : List Slot}
    (hs : Starts infos) (hd : (infos.map fun i => H i.name).Nodup) (hf : size ≤ fuel)
    (hg : generate H fuel infos size = .ok t) {i : Info} (hi : i ∈ infos) :
    ∃ pos, findC t (H i.name) = .ok pos ∧ t[pos]? = some ⟨H i.name, i.start, i.size⟩ := by
  have g := generate_good hs hf hg
  have hu := generate_uniq hd hg
  obtain ⟨k, hk, hat, hoc⟩ := g.path i hi
  have hlen := g.len
  subst hlen
  refine ⟨_, findC_spec hk hat rfl ?_, hat⟩
  intro j hj
  obtain ⟨e, he, h0⟩ := hoc j hj
  refine ⟨e, he, h0, fun heq => ?_⟩
  exact add_mod_ne (by omega) hk (Nat.ne_of_lt hj) (hu _ _ _ _ he hat h0 (hs i hi) heq)

/-- Every input is found by the WebAssembly lookup too, provided no hash is zero: there a place counts
as empty when its hash is zero. The table size is a power of two (wasm_elements/mod.rs:211-214).
Missing from the full claim: names with hash zero; see `C51_found_wasm_violated`. -/
theorem C51_found_wasm_partial {H : String → Nat} {infos : List Info} {size fuel m : Nat}
    {t : List Slot} (hsize : size = 2 ^ m) (hm : m ≤ 32)
    (hs : Starts infos) (hd : (infos.map fun i => H i.name).Nodup)
    (hz : ∀ i ∈ infos, H i.name ≠ 0) (hf : size ≤ fuel)
    (hg : generate H fuel infos size = .ok t) {i : Info} (hi : i ∈ infos) :
    ∃ pos, findW t (H i.name) = .ok pos ∧ t[pos]? = some ⟨H i.name, i.start, i.size⟩ := by
  have g := generate_good hs hf hg
  have hu := generate_uniq hd hg
  obtain ⟨k, hk, hat, hoc⟩ := g.path i hi
  have hlen := g.len
  subst hlen
  refine ⟨_, findW_spec hsize hm hk hat rfl ?_, hat⟩
  intro j hj
  obtain ⟨e, he, h0⟩ := hoc j hj
  refine ⟨e, he, ?_, fun heq => ?_⟩
  · obtain ⟨i', hi', rfl⟩ := g.mem _ e he h0
    exact hz i' hi'
  · exact add_mod_ne (by omega) hk (Nat.ne_of_lt hj) (hu _ _ _ _ he hat h0 (hs i hi) heq)

theorem absent_of_good {H : String → Nat} {infos : List Info} {size : Nat} {t : List Slot}
    (g : Good H size infos t) {h : Nat} (h0 : h ≠ 0) (hno : ∀ i ∈ infos, H i.name ≠ h) :
    ∀ e ∈ t, e.hash ≠ h := by
  intro e he heq
  obtain ⟨q, hq, rfl⟩ := List.getElem_of_mem he
  by_cases hz : (t[q]).start = 0
  · have := g.zero q _ (List.getElem?_eq_getElem hq) hz
    rw [this] at heq
    exact h0 heq.symm
  · obtain ⟨i, hi, he'⟩ := g.mem q _ (List.getElem?_eq_getElem hq) hz
    rw [he'] at heq
    exact hno i hi heq

/-- A hash other than zero that belongs to no input is reported as not found by both lookups, after
finitely many steps; the program never reads outside the table. Missing: the hash zero in the C++
lookup; see `C51_absent_violated`. -/
theorem C51_absent_partial {H : String → Nat} {infos : List Info} {size fuel : Nat} {t : List Slot}
    (hs : Starts infos) (hf : size ≤ fuel) (hg : generate H fuel infos size = .ok t)
    (hpos : 0 < size) {h : Nat} (h0 : h ≠ 0) (hno : ∀ i ∈ infos, H i.name ≠ h) :
    findC t h = .error .notFound ∧
      ∀ m ≤ 32, size = 2 ^ m → findW t h = .error .notFound := by
  have g := generate_good hs hf hg
  have hab := absent_of_good g h0 hno
  refine ⟨findC_none (by rw [g.len]; exact hpos) hab, fun m hm hsz => ?_⟩
  exact findW_none (by rw [g.len]; exact hsz) hm hab

/-! Cases meeting the hypotheses: three inputs in a table of four places, with collisions. -/

def H3 : String → Nat := fun s => 4 * s.length + 1

def infos3 : List Info := [⟨"a", 1, 1⟩, ⟨"bb", 2, 3⟩, ⟨"ccc", 5, 2⟩]

example : Starts infos3 ∧ (infos3.map fun i => H3 i.name).Nodup ∧ infos3.length ≤ 4 ∧
    (∀ i ∈ infos3, H3 i.name ≠ 0) := by decide

example : generate H3 4 infos3 4 =
    .ok [⟨0, 0, 0⟩, ⟨5, 1, 1⟩, ⟨9, 2, 3⟩, ⟨13, 5, 2⟩] := by decide

example : findC [⟨0, 0, 0⟩, ⟨5, 1, 1⟩, ⟨9, 2, 3⟩, ⟨13, 5, 2⟩] (H3 "ccc") = .ok 3 ∧
    findW [⟨0, 0, 0⟩, ⟨5, 1, 1⟩, ⟨9, 2, 3⟩, ⟨13, 5, 2⟩] (H3 "ccc") = .ok 3 ∧
    findC [⟨0, 0, 0⟩, ⟨5, 1, 1⟩, ⟨9, 2, 3⟩, ⟨13, 5, 2⟩] 17 = .error .notFound ∧
    findW [⟨0, 0, 0⟩, ⟨5, 1, 1⟩, ⟨9, 2, 3⟩, ⟨13, 5, 2⟩] 17 = .error .notFound := by decide

/-- A full table. -/
example : (match generate H3 3 infos3 3 with
    | .ok t => infos3.all fun i => match findC t (H3 i.name) with | .ok _ => true | _ => false
    | .error _ => false) = true := by decide

example : generate H3 9 infos3 2 = .error .assertFailed := by decide

/-! The full claims fail for names whose hash is zero. `y8bJic_xTYX` is such a name, and a legal
identifier (parser/src/lang.lalrpop:846-848). -/

def infosZ : List Info := [⟨"y8bJic_xTYX", 1, 1⟩, ⟨"ds", 2, 1⟩]

/-- Two inputs with different hashes, in a table of the size the compiler takes; the second input is
not found by the WebAssembly lookup, which takes the place of the first to be empty. -/
theorem C51_found_wasm_violated :
    Starts infosZ ∧ (infosZ.map fun i => hasher i.name).Nodup ∧
      ∃ t, generate hasher 256 infosZ 256 = .ok t ∧ findW t (hasher "ds") = .error .notFound ∧
        findC t (hasher "ds") = .ok 1 := by
  refine ⟨by decide, by decide +kernel, ?_⟩
  have h : (match generate hasher 256 infosZ 256 with
      | .ok t => decide (findW t (hasher "ds") = .error .notFound ∧ findC t (hasher "ds") = .ok 1)
      | .error _ => false) = true := by decide +kernel
  split at h
  · rename_i t ht
    exact ⟨t, ht, of_decide_eq_true h⟩
  · cases h

/-- A name that is no input is found by the C++ lookup if its hash is zero and the first place of the
table is empty. -/
theorem C51_absent_violated :
    ∃ t, generate hasher 256 [⟨"a", 1, 1⟩] 256 = .ok t ∧
      findC t (hasher "y8bJic_xTYX") = .ok 0 ∧ t[0]? = some ⟨0, 0, 0⟩ := by
  have h : (match generate hasher 256 [⟨"a", 1, 1⟩] 256 with
      | .ok t => decide (findC t (hasher "y8bJic_xTYX") = .ok 0 ∧ t[0]? = some ⟨0, 0, 0⟩)
      | .error _ => false) = true := by decide +kernel
  split at h
  · rename_i t ht
    exact ⟨t, ht, of_decide_eq_true h⟩
  · cases h

end Verif.Props.HashMap
