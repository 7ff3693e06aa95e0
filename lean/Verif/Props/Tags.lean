import Verif.TagsLemmas
import Mathlib.Data.Finset.Card
import Mathlib.Data.Finset.Range
import Mathlib.Tactic.Common

/-!
C53: which tags a signal has after a sequence of assignments, which of them a read of the signal
carries, the same for buses, and the tags of arrays written in line.

A history is the list of the tags of the assigned values, in order. `Fresh` is the state after the
declaration: all tags are declared ones.
-/

namespace Verif.Props.Tags

open Verif Verif.Tags

/-- After a sequence of assignments, none of which fails: a tag that is not declared on the signal is
kept with a value exactly if every assigned value had it with this value. A declared tag with a value
given by the user keeps it; any other declared tag is kept, and has a value exactly if all assigned
values had it with this value. -/
theorem C53_kept {tags : TagInfo} {defs : TagDefs} (hf : Fresh tags defs) (total : Nat)
    (hist : List (TagInfo × Nat)) (hne : hist ≠ []) :
    ∃ s, assignAll hist ⟨tags, defs, total, false⟩ = .ok s ∧
      (∀ k, tags.lookup k = none → ∀ v,
        (s.tags.lookup k = some v ↔ ∀ a ∈ hist, a.1.lookup k = some v)) ∧
      (∀ k v, tags.lookup k = some v → defs.lookup k = some ⟨true, true⟩ → s.tags.lookup k = some v) ∧
      (∀ k v, tags.lookup k = some v → defs.lookup k = some ⟨true, false⟩ →
        ∃ w, s.tags.lookup k = some w ∧
          ∀ x, w = some x ↔ ∀ a ∈ hist, a.1.lookup k = some (some x)) := by
  obtain ⟨s, h1, h2, _⟩ := assignAll_spec hf hist [] ⟨tags, defs, total, false⟩ hf.after
  simp only [List.nil_append] at h2
  have hne' : hist.map Prod.fst ≠ [] := by simpa using hne
  refine ⟨s, h1, fun k hk v => ?_, fun k v hk hd => (h2.valued k v hk hd).1, fun k v hk hd => ?_⟩
  · rw [(h2.undeclared k hk).2.1 hne' v, List.forall_mem_map]
  · obtain ⟨_, w, hw, _, hx⟩ := h2.unvalued k v hk hd
    refine ⟨w, hw, fun x => ?_⟩
    rw [hx hne' x, List.forall_mem_map]

/-- A signal with the declared tags `max` (value 8) and `binary`: `extra` survives, with a value all
assigned values agree on; `odd` does not. -/
example : Fresh [("max", some 8), ("binary", none)] [("max", ⟨true, true⟩), ("binary", ⟨true, false⟩)] ∧
    (match assignAll [([("extra", some 3), ("odd", none)], 1), ([("binary", some 1), ("extra", some 3)], 1)]
        ⟨[("max", some 8), ("binary", none)], [("max", ⟨true, true⟩), ("binary", ⟨true, false⟩)], 2, false⟩ with
      | .ok s => decide (s.tags.lookup "extra" = some (some 3) ∧ s.tags.lookup "odd" = none ∧
          s.tags.lookup "max" = some (some 8) ∧ s.tags.lookup "binary" = some none)
      | _ => false) = true := by
  refine ⟨⟨by simp [IsMap], ?_, ?_⟩, by decide +kernel⟩
  · intro k v h
    by_cases h1 : k = "max"
    · subst h1; exact ⟨true, by decide⟩
    · by_cases h2 : k = "binary"
      · subst h2; exact ⟨false, by decide⟩
      · have e1 : (k == "max") = false := by simpa using h1
        have e2 : (k == "binary") = false := by simpa using h2
        simp [List.lookup, e1, e2] at h
  · intro k h
    by_cases h1 : k = "max"
    · subst h1; simp [List.lookup] at h
    · by_cases h2 : k = "binary"
      · subst h2; simp [List.lookup] at h
      · have e1 : (k == "max") = false := by simpa using h1
        have e2 : (k == "binary") = false := by simpa using h2
        simp [List.lookup, e1, e2]

/-- The order of the assignments does not matter for the tags, their values and what a read carries. -/
theorem C53_order {tags : TagInfo} {defs : TagDefs} (hf : Fresh tags defs) (total : Nat)
    {h1 h2 : List (TagInfo × Nat)} (hp : h1.Perm h2) :
    ∃ s1 s2 r1 r2, assignAll h1 ⟨tags, defs, total, false⟩ = .ok s1 ∧
      assignAll h2 ⟨tags, defs, total, false⟩ = .ok s2 ∧
      readTags s1 = .ok r1 ∧ readTags s2 = .ok r2 ∧
      ∀ k, s1.tags.lookup k = s2.tags.lookup k ∧ r1.lookup k = r2.lookup k := by
  obtain ⟨s1, e1, a1, n1⟩ := assignAll_spec hf h1 [] ⟨tags, defs, total, false⟩ hf.after
  obtain ⟨s2, e2, a2, n2⟩ := assignAll_spec hf h2 [] ⟨tags, defs, total, false⟩ hf.after
  obtain ⟨r1, f1, g1⟩ := computePropagated_spec (remaining := s1.remaining) s1.tags [] a1.map (a1.known hf)
  obtain ⟨r2, f2, g2⟩ := computePropagated_spec (remaining := s2.remaining) s2.tags [] a2.map (a2.known hf)
  simp only [List.nil_append] at a1 a2
  have hrem : s1.remaining = s2.remaining := by
    rw [n1, n2, (hp.map Prod.snd).sum_nat]
  have hmem : ∀ a, a ∈ h1.map Prod.fst ↔ a ∈ h2.map Prod.fst := fun a => (hp.map Prod.fst).mem_iff
  by_cases hne : h1 = []
  · subst hne
    have := hp.nil_eq
    subst this
    rw [e1] at e2
    cases e2
    exact ⟨s1, s1, r1, r1, e1, e1, f1, f1, fun k => ⟨rfl, rfl⟩⟩
  have hne1 : h1.map Prod.fst ≠ [] := by simpa using hne
  have hne2 : h2.map Prod.fst ≠ [] := by
    simp only [ne_eq, List.map_eq_nil_iff]
    rintro rfl
    exact hne hp.eq_nil
  have key : ∀ k, s1.tags.lookup k = s2.tags.lookup k ∧
      ∀ v, s1.tags.lookup k = some v → s1.defs.lookup k = s2.defs.lookup k := by
    intro k
    cases h0 : tags.lookup k with
    | none =>
      obtain ⟨_, u1, d1⟩ := a1.undeclared k h0
      obtain ⟨_, u2, d2⟩ := a2.undeclared k h0
      have e : s1.tags.lookup k = s2.tags.lookup k := by
        apply Option.ext
        intro v
        rw [u1 hne1 v, u2 hne2 v]
        exact ⟨fun h a ha => h a ((hmem a).mpr ha), fun h a ha => h a ((hmem a).mp ha)⟩
      exact ⟨e, fun v hv => by rw [d1 v hv, d2 v (by rw [← e]; exact hv)]⟩
    | some v0 =>
      obtain ⟨vd, hvd⟩ := hf.declared k v0 h0
      cases vd with
      | true =>
        obtain ⟨x1, y1⟩ := a1.valued k v0 h0 hvd
        obtain ⟨x2, y2⟩ := a2.valued k v0 h0 hvd
        exact ⟨by rw [x1, x2], fun _ _ => by rw [y1, y2]⟩
      | false =>
        obtain ⟨y1, w1, x1, _, z1⟩ := a1.unvalued k v0 h0 hvd
        obtain ⟨y2, w2, x2, _, z2⟩ := a2.unvalued k v0 h0 hvd
        refine ⟨?_, fun _ _ => by rw [y1, y2]⟩
        rw [x1, x2]
        congr 1
        apply Option.ext
        intro x
        rw [z1 hne1 x, z2 hne2 x]
        exact ⟨fun h a ha => h a ((hmem a).mpr ha), fun h a ha => h a ((hmem a).mp ha)⟩
  refine ⟨s1, s2, r1, r2, e1, e2, f1, f2, fun k => ⟨(key k).1, ?_⟩⟩
  rw [g1, g2, ← (key k).1, hrem]
  cases hk : s1.tags.lookup k with
  | none => simp
  | some v =>
    rw [(key k).2 v hk]

example : (match assignAll [([("a", some 3)], 1), ([("a", some 3), ("b", none)], 1)] ⟨[], [], 2, false⟩,
      assignAll [([("a", some 3), ("b", none)], 1), ([("a", some 3)], 1)] ⟨[], [], 2, false⟩ with
    | .ok s1, .ok s2 => decide (s1.tags = [("a", some 3)] ∧ s2.tags = [("a", some 3)])
    | _, _ => false) = true := by decide +kernel

/-- What a read of the signal carries, if no element is assigned twice: a tag that is not declared is
carried with a value exactly if all elements have been assigned and every assigned value had it with
this value. Declared tags are carried always, with the value given by the user if there is one. -/
theorem C53_read_partial {tags : TagInfo} {defs : TagDefs} (hf : Fresh tags defs) (total : Nat)
    (hist : List (TagInfo × List Nat)) (hne : hist ≠ [])
    (hin : ∀ a ∈ hist, ∀ c ∈ a.2, c < total) (hdis : (hist.flatMap Prod.snd).Nodup) :
    ∃ s r, assignAll (hist.map fun a => (a.1, a.2.length)) ⟨tags, defs, total, false⟩ = .ok s ∧
      readTags s = .ok r ∧
      (∀ k, tags.lookup k = none → ∀ v, (r.lookup k = some v ↔
        (∀ c < total, ∃ a ∈ hist, c ∈ a.2) ∧ ∀ a ∈ hist, a.1.lookup k = some v)) ∧
      (∀ k v, tags.lookup k = some v → (r.lookup k).isSome) ∧
      (∀ k v, tags.lookup k = some v → defs.lookup k = some ⟨true, true⟩ → r.lookup k = some v) := by
  set h' : List (TagInfo × Nat) := hist.map fun a => (a.1, a.2.length) with hh'
  obtain ⟨s, e1, a1, n1⟩ := assignAll_spec hf h' [] ⟨tags, defs, total, false⟩ hf.after
  obtain ⟨r, f1, g1⟩ := computePropagated_spec (remaining := s.remaining) s.tags [] a1.map (a1.known hf)
  simp only [List.lookup_nil, Option.or_none] at g1
  simp only [List.nil_append] at a1
  have hne' : h'.map Prod.fst ≠ [] := by simpa [hh'] using hne
  have hfst : ∀ P : TagInfo → Prop, (∀ a ∈ h'.map Prod.fst, P a) ↔ ∀ a ∈ hist, P a.1 := by
    intro P
    simp only [hh', List.map_map, List.forall_mem_map, Function.comp]
  have hsum : (h'.map Prod.snd).sum = (hist.flatMap Prod.snd).length := by
    simp only [hh', List.map_map, List.length_flatMap, Function.comp_def]
  have hmem : ∀ c, c ∈ hist.flatMap Prod.snd ↔ ∃ a ∈ hist, c ∈ a.2 := fun c => List.mem_flatMap
  have hrem : s.remaining = 0 ↔ ∀ c < total, ∃ a ∈ hist, c ∈ a.2 := by
    rw [n1, hsum, Nat.sub_eq_zero_iff_le]
    have hsub : (hist.flatMap Prod.snd).toFinset ⊆ Finset.range total := by
      intro c hc
      rw [List.mem_toFinset, hmem] at hc
      obtain ⟨a, ha, hc⟩ := hc
      exact Finset.mem_range.mpr (hin a ha c hc)
    have hcard : (hist.flatMap Prod.snd).toFinset.card = (hist.flatMap Prod.snd).length :=
      List.toFinset_card_of_nodup hdis
    constructor
    · intro hle c hc
      have : (hist.flatMap Prod.snd).toFinset = Finset.range total :=
        Finset.eq_of_subset_of_card_le hsub (by rw [hcard, Finset.card_range]; exact hle)
      rw [← hmem, ← List.mem_toFinset, this]
      exact Finset.mem_range.mpr hc
    · intro hall
      have : Finset.range total ⊆ (hist.flatMap Prod.snd).toFinset := by
        intro c hc
        rw [List.mem_toFinset, hmem]
        exact hall c (Finset.mem_range.mp hc)
      have := Finset.card_le_card this
      rwa [Finset.card_range, hcard] at this
  refine ⟨s, r, e1, f1, fun k hk v => ?_, fun k v hk => ?_, fun k v hk hd => ?_⟩
  · obtain ⟨_, u, d⟩ := a1.undeclared k hk
    have u := u hne'
    rw [g1, ← hrem, ← hfst (fun a => a.lookup k = some v), ← u v]
    cases hl : s.tags.lookup k with
    | none => simp
    | some w =>
      rw [d w hl]
      by_cases h0 : s.remaining = 0
      · simp [propagatedOf, h0]
      · simp [propagatedOf, h0]
  · obtain ⟨vd, hvd⟩ := hf.declared k v hk
    cases vd with
    | true =>
      obtain ⟨x, y⟩ := a1.valued k v hk hvd
      rw [g1, x, y]
      simp [propagatedOf]
    | false =>
      obtain ⟨y, w, x, _⟩ := a1.unvalued k v hk hvd
      rw [g1, x, y]
      by_cases h0 : s.remaining = 0 <;> simp [propagatedOf, h0]
  · obtain ⟨x, y⟩ := a1.valued k v hk hd
    rw [g1, x, y]
    simp [propagatedOf]

example : Fresh [] [] ∧
    (∀ a ∈ [([("a", some 3)], [0]), (([("a", some 3)] : TagInfo), [2, 1])], ∀ c ∈ a.2, c < 3) ∧
    ([([("a", some 3)], [0]), (([("a", some 3)] : TagInfo), [2, 1])].flatMap Prod.snd).Nodup ∧
    (match assignAll [([("a", some 3)], 1), ([("a", some 3)], 2)] ⟨[], [], 3, false⟩ with
      | .ok s => (match readTags s with | .ok r => decide (r = [("a", some 3)]) | _ => false)
      | _ => false) = true :=
  ⟨⟨by simp [IsMap], by simp, by simp⟩, by decide, by decide, by decide +kernel⟩

/-- If an element may be assigned twice, in the two branches of a condition not known at compile time,
the count of the elements still to be assigned is too small, and a read carries a tag although an
element has not been assigned: `if (c) {o[0] <== x;} else {o[0] <== x;}` on an array of two elements,
with `x` tagged. -/
theorem C53_read_violated :
    ∃ (hist : List (TagInfo × List Nat)) (s : SigTags) (r : TagInfo),
      (∀ a ∈ hist, ∀ c ∈ a.2, c < 2) ∧
      assignAll (hist.map fun a => (a.1, a.2.length)) ⟨[], [], 2, false⟩ = .ok s ∧
      readTags s = .ok r ∧ r.lookup "binary" = some none ∧ ¬ ∃ a ∈ hist, 1 ∈ a.2 :=
  ⟨[([("binary", none)], [0]), ([("binary", none)], [0])], _, _, by decide, rfl, rfl, by decide, by decide⟩

/-- In a bus, each field, however deep, is treated as a signal of its own. -/
theorem C53_bus_kept {b b' c : BusTags} {path : List String} {hist : List (TagWire × Nat)}
    (hne : hist ≠ []) (h : propBusAll hist b = .ok b') (hc : b.at path = some c)
    (hf : Fresh c.tags c.defs) (hi : c.isInit = false) :
    ∃ c', b'.at path = some c' ∧
      (∀ k, c.tags.lookup k = none → ∀ v,
        (c'.tags.lookup k = some v ↔ ∀ a ∈ hist, (a.1.at path).tags.lookup k = some v)) ∧
      (∀ k v, c.tags.lookup k = some v → c.defs.lookup k = some ⟨true, true⟩ →
        c'.tags.lookup k = some v) ∧
      (∀ k v, c.tags.lookup k = some v → c.defs.lookup k = some ⟨true, false⟩ →
        ∃ w, c'.tags.lookup k = some w ∧
          ∀ x, w = some x ↔ ∀ a ∈ hist, (a.1.at path).tags.lookup k = some (some x)) := by
  obtain ⟨c', h1, h2⟩ := propBusAll_at hf path hist [] b b' c h hc (by rw [hi]; exact hf.after)
  simp only [List.nil_append] at h2
  have hne' : (hist.map fun w => (w.1.at path).tags) ≠ [] := by simpa using hne
  refine ⟨c', h1, fun k hk v => ?_, fun k v hk hd => (h2.valued k v hk hd).1, fun k v hk hd => ?_⟩
  · rw [(h2.undeclared k hk).2.1 hne' v, List.forall_mem_map]
  · obtain ⟨_, w, hw, _, hx⟩ := h2.unvalued k v hk hd
    refine ⟨w, hw, fun x => ?_⟩
    rw [hx hne' x, List.forall_mem_map]

/-- A bus with a field `f` that has two elements, and no declared tags. -/
def exBus : BusTags := .mk [] [] 1 1 false [("f", .mk [] [] 2 2 false [])]

def exWire : TagWire := .mk [("t", none)] (some [("f", .mk [("u", some 1)] none)])

example : ∃ b' c', propBusAll [(exWire, 1)] exBus = .ok b' ∧ b'.at ["f"] = some c' ∧
    exBus.at ["f"] = some (.mk [] [] 2 2 false []) ∧ Fresh [] [] ∧
    c'.tags = [("u", some 1)] ∧ (exWire.at ["f"]).tags.lookup "u" = some (some 1) :=
  ⟨.mk [("t", none)] [("t", ⟨false, false⟩)] 0 1 true
      [("f", .mk [("u", some 1)] [("u", ⟨false, false⟩)] 0 2 true [])], _,
    rfl, rfl, rfl, ⟨by simp [IsMap], by simp, by simp⟩, rfl, rfl⟩

/-- A bus as declared, with `n` elements: declared tags only, and the counts of the elements still to be
assigned are those of the whole. -/
inductive Declared : Nat → BusTags → Prop
  | mk {n size : Nat} {tags : TagInfo} {defs : TagDefs} {fields : List (String × BusTags)} :
      Fresh tags defs → (∀ f ∈ fields, Declared (f.2.size * n) f.2) →
      Declared n (.mk tags defs n size false fields)

theorem Declared.room {n : Nat} {b : BusTags} (h : Declared n b) : Room n b := by
  induction h with
  | @mk n size tags defs fields hf _ ih =>
    refine Room.mk (H := []) hf hf.after le_rfl fun f hm => ?_
    have := ih f hm
    obtain ⟨g, t, d, r, s, i, fs⟩ := f
    exact this

/-- Assignments to a bus do not fail as long as no more elements are assigned than there are. -/
theorem C53_bus_total_partial {n : Nat} {b : BusTags} (h : Declared n b) (hist : List (TagWire × Nat))
    (hs : (hist.map Prod.snd).sum ≤ n) : ∃ b', propBusAll hist b = .ok b' :=
  h.room.all hist n b hs

example : Declared 1 exBus ∧ ([(exWire, 1)].map Prod.snd).sum ≤ 1 := by
  refine ⟨Declared.mk ⟨by simp [IsMap], by simp, by simp⟩ ?_, by decide⟩
  intro f hf
  simp only [List.mem_singleton] at hf
  subst hf
  exact Declared.mk ⟨by simp [IsMap], by simp, by simp⟩ (by simp)

/-- With the two branches of an unknown condition each assigning the whole bus, the count goes below
zero: a checked build stops, a release build goes on with a huge count. For a signal the same program
is accepted (`C53_kept`). -/
theorem C53_bus_total_violated :
    Declared 1 exBus ∧ propBusAll [(exWire, 1), (exWire, 1)] exBus = .error .underflow := by
  refine ⟨Declared.mk ⟨by simp [IsMap], by simp, by simp⟩ ?_, rfl⟩
  intro f hf
  simp only [List.mem_singleton] at hf
  subst hf
  exact Declared.mk ⟨by simp [IsMap], by simp, by simp⟩ (by simp)

/-- An array written in line has a tag with a value, in any of its parts, exactly if all its elements
have it with this value. -/
theorem C53_inline (path : List String) (k : String) (v : Option Int) (x : Option TagWire)
    (xs : List (Option TagWire)) {r : Option TagWire} (hm : ∀ w, x = some w → w.Maps)
    (h : inlineTags true none (x :: xs) = .ok r) :
    TagWire.Has path k v r ↔ ∀ y ∈ x :: xs, TagWire.Has path k v y := by
  cases x with
  | none =>
    simp only [inlineTags, inlineStep] at h
    rw [inlineTags_at path k v xs (by simp) h]
    simp
  | some w =>
    simp only [inlineTags, inlineStep, if_true] at h
    rw [inlineTags_at path k v xs hm h]
    simp

example : exWire.Maps ∧ ∃ r, inlineTags true none [some exWire, some exWire] = .ok r ∧
    TagWire.Has ["f"] "u" (some 1) r ∧
    inlineTags true none [some exWire, some (.mk [] (some [("f", .mk [("u", some 2)] none)]))] =
      .ok (some (.mk [] (some [("f", .mk [] none)]))) := by
  refine ⟨?_, some (.mk [("t", none)] (some [("f", .mk [("u", some 1)] none)])), rfl, ⟨_, rfl, rfl⟩, rfl⟩
  intro path
  match path with
  | [] => simp [TagWire.at, TagWire.tags, exWire, IsMap]
  | f :: p =>
    by_cases h : f = "f"
    · subst h
      match p with
      | [] => simp [TagWire.at, TagWire.tags, exWire, IsMap, fieldWire, List.lookup]
      | g :: q =>
        simp [TagWire.at, TagWire.tags, exWire, IsMap, fieldWire, List.lookup, at_empty]
    · have : (f == "f") = false := by simpa using h
      simp [TagWire.at, TagWire.tags, exWire, IsMap, fieldWire, List.lookup, this, at_empty]

end Verif.Props.Tags
