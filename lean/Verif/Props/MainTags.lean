import Verif.MainTags

/-!
# C104: the inputs of the main component have no tags
-/

namespace Verif.Props.MainTags
open Verif.MainTags

variable {buses : String → Option (List Wire)}

/-- A tag on a wire, on a field of the bus it is, on a field of a bus that is a field of it, and so on. -/
inductive Tagged (buses : String → Option (List Wire)) : Wire → Prop
  | here (w : Wire) : w.tags ≠ [] → Tagged buses w
  | field (w : Wire) (b : String) (fields : List Wire) (f : Wire) :
      w.bus = some b → buses b = some fields → f ∈ fields → Tagged buses f → Tagged buses w

/-- Some field of the bus is tagged. -/
def BusTagged (buses : String → Option (List Wire)) (b : String) : Prop := ∃ fields f, buses b = some fields ∧ f ∈ fields ∧ Tagged buses f

theorem tagged_iff (w : Wire) : Tagged buses w ↔ w.tags ≠ [] ∨ ∃ b, w.bus = some b ∧ BusTagged buses b := by
  constructor
  · intro h
    cases h with
    | here _ h => exact .inl h
    | field _ b fields f h1 h2 h3 h4 => exact .inr ⟨b, h1, fields, f, h2, h3, h4⟩
  · rintro (h | ⟨b, h1, fields, f, h2, h3, h4⟩)
    · exact .here w h
    · exact .field w b fields f h1 h2 h3 h4

theorem scan_sound (g : String → Ans) (hg : ∀ b v, g b = .val v → (v = true ↔ BusTagged buses b)) (l : List Wire) (v : Bool)
    (h : scan g l = .val v) : v = true ↔ ∃ w ∈ l, Tagged buses w := by
  induction l with
  | nil => simp [scan] at h; simp [← h]
  | cons w l ih =>
    rw [scan] at h
    split at h
    · rename_i ht
      cases h
      have : w.tags ≠ [] := by simpa using ht
      exact ⟨fun _ => ⟨w, by simp, .here w this⟩, fun _ => rfl⟩
    · rename_i ht
      have ht : w.tags = [] := by simpa using ht
      split at h
      · rename_i hb
        have hw : ¬ Tagged buses w := by rw [tagged_iff]; simp [ht, hb]
        rw [ih h]
        simp [hw]
      · rename_i b hb
        split at h
        · rename_i hv
          cases h
          exact ⟨fun _ => ⟨w, by simp, (tagged_iff w).2 (.inr ⟨b, hb, (hg b true hv).1 rfl⟩)⟩, fun _ => rfl⟩
        · rename_i hv
          have hn : ¬ BusTagged buses b := fun hb => by simpa using (hg b false hv).2 hb
          have hw : ¬ Tagged buses w := by rw [tagged_iff]; simp [ht, hb, hn]
          rw [ih h]
          simp [hw]
        · rename_i hne _
          exact absurd h (by
            intro h
            cases v
            · exact (by assumption : g b = Ans.val false → False) h
            · exact hne h)

theorem inBus_sound (n : Nat) : ∀ b v, inBus buses n b = .val v → (v = true ↔ BusTagged buses b) := by
  induction n with
  | zero => intro b v h; cases h
  | succ n ih =>
    intro b v h
    rw [inBus] at h
    split at h
    · cases h
    · rename_i fields hf
      rw [scan_sound _ ih fields v h]
      constructor
      · rintro ⟨f, m, t⟩; exact ⟨fields, f, hf, m, t⟩
      · rintro ⟨fields', f, hf', m, t⟩
        rw [hf] at hf'
        cases hf'
        exact ⟨f, m, t⟩

/-- C104 (partial: of searches that end).  The program is refused exactly if an input of the main component has a tag, on itself or on a
field at any depth; so in an accepted program no tag comes from outside. -/
theorem C104_tags_partial (depth : Nat) (inputs : List Wire) (v : Bool) (h : mainTags buses depth inputs = .val v) :
    v = true ↔ ∃ w ∈ inputs, Tagged buses w := scan_sound _ (inBus_sound depth) inputs v h

/-- C104.  The answer does not depend on the order in which the tables of inputs and fields are gone through. -/
theorem C104_order (buses' : String → Option (List Wire)) (inputs inputs' : List Wire) (depth depth' : Nat) (v v' : Bool)
    (hi : inputs.Perm inputs')
    (hb : ∀ b, (buses b = none ∧ buses' b = none) ∨ ∃ l l', buses b = some l ∧ buses' b = some l' ∧ l.Perm l')
    (h : mainTags buses depth inputs = .val v) (h' : mainTags buses' depth' inputs' = .val v') : v = v' := by
  have tr : ∀ (x y : String → Option (List Wire)),
      (∀ b, (x b = none ∧ y b = none) ∨ ∃ l l', x b = some l ∧ y b = some l' ∧ l.Perm l') → ∀ w, Tagged x w → Tagged y w := by
    intro x y hxy w t
    induction t with
    | here w h => exact .here w h
    | field w b fields f h1 h2 h3 _ ih =>
      rcases hxy b with ⟨e, -⟩ | ⟨l, l', e, e', p⟩
      · rw [h2] at e; cases e
      · rw [h2] at e
        cases e
        exact .field w b l' f h1 e' (p.mem_iff.1 h3) ih
  have hb' : ∀ b, (buses' b = none ∧ buses b = none) ∨ ∃ l l', buses' b = some l ∧ buses b = some l' ∧ l.Perm l' := by
    intro b
    rcases hb b with ⟨e, e'⟩ | ⟨l, l', e, e', p⟩
    · exact .inl ⟨e', e⟩
    · exact .inr ⟨l', l, e', e, p.symm⟩
  have e := C104_tags_partial depth inputs v h
  have e' := C104_tags_partial depth' inputs' v' h'
  have : v = true ↔ v' = true := by
    rw [e, e']
    exact ⟨fun ⟨w, m, t⟩ => ⟨w, hi.mem_iff.1 m, tr _ _ hb w t⟩, fun ⟨w, m, t⟩ => ⟨w, hi.mem_iff.2 m, tr _ _ hb' w t⟩⟩
  cases v <;> cases v' <;> simp_all

theorem scan_val (g : String → Ans) (l : List Wire) (hg : ∀ w ∈ l, ∀ b, w.bus = some b → ∃ v, g b = .val v) : ∃ v, scan g l = .val v := by
  induction l with
  | nil => exact ⟨false, rfl⟩
  | cons w l ih =>
    obtain ⟨v, hv⟩ := ih fun a m => hg a (by simp [m])
    rw [scan]
    split
    · exact ⟨true, rfl⟩
    · split
      · exact ⟨v, hv⟩
      · rename_i b hb
        obtain ⟨u, hu⟩ := hg w (by simp) b hb
        rw [hu]
        cases u
        · exact ⟨v, hv⟩
        · exact ⟨true, rfl⟩

/-- C104 (partial: if no bus is a part of itself).  If every bus named exists and the fields of a bus are of lower rank than it, the search ends,
no deeper than the rank. -/
theorem C104_ends_partial (rank : String → Nat) (inputs : List Wire)
    (hin : ∀ w ∈ inputs, ∀ b, w.bus = some b → ∃ l, buses b = some l)
    (hf : ∀ b l, buses b = some l → ∀ f ∈ l, ∀ c, f.bus = some c → (∃ k, buses c = some k) ∧ rank c < rank b)
    (depth : Nat) (hd : ∀ w ∈ inputs, ∀ b, w.bus = some b → rank b < depth) : ∃ v, mainTags buses depth inputs = .val v := by
  have key : ∀ n b, rank b < n → (∃ l, buses b = some l) → ∃ v, inBus buses n b = .val v := by
    intro n
    induction n with
    | zero => intro b h; omega
    | succ n ih =>
      rintro b h ⟨l, e⟩
      rw [inBus, e]
      refine scan_val _ l fun f m c hc => ?_
      obtain ⟨k, r⟩ := hf b l e f m c hc
      exact ih c (by omega) k
  exact scan_val _ inputs fun w m b hb => key depth b (hd w m b hb) (hin w m b hb)

/-- `bus A() { A() x; }`, which the other analyses let pass. -/
def selfBus (b : String) : Option (List Wire) := if b = "A" then some [⟨[], some "A"⟩] else none

/-- C104 is violated by buses that are parts of themselves: for `template T() { input A() a; }` as main component no depth is enough. -/
theorem C104_recursive_violated : ∃ (buses : String → Option (List Wire)) (inputs : List Wire),
    (∀ b l, buses b = some l → ∀ f ∈ l, ∀ c, f.bus = some c → ∃ k, buses c = some k) ∧
    (∀ w ∈ inputs, ¬ Tagged buses w) ∧ ∀ depth, mainTags buses depth inputs = .deep := by
  have deep : ∀ n, inBus selfBus n "A" = .deep := by
    intro n
    induction n with
    | zero => rfl
    | succ n ih => simp [inBus, selfBus, scan, ih]
  refine ⟨selfBus, [⟨[], some "A"⟩], ?_, ?_, fun n => ?_⟩
  · intro b l h f m c hc
    unfold selfBus at h
    split at h
    · cases h
      simp only [List.mem_singleton] at m
      subst m
      cases hc
      exact ⟨_, rfl⟩
    · cases h
  · intro w m t
    simp only [List.mem_singleton] at m
    have : ∀ w, Tagged selfBus w → w = ⟨[], some "A"⟩ → False := by
      intro w t
      induction t with
      | here w h => rintro rfl; exact h rfl
      | field w b fields f h1 h2 h3 _ ih =>
        rintro rfl
        cases h1
        simp [selfBus] at h2
        subst h2
        exact ih (by simpa using h3)
    exact this w t m
  · simp [mainTags, scan, deep]

/-- `bus P() { signal x; signal {bin} y; }`, `bus L() { signal a; P() b; }`, `bus C() { signal a; }`. -/
def demo (b : String) : Option (List Wire) :=
  if b = "P" then some [⟨[], none⟩, ⟨["bin"], none⟩]
  else if b = "L" then some [⟨[], none⟩, ⟨[], some "P"⟩]
  else if b = "C" then some [⟨[], none⟩]
  else none

theorem demo_tagged : mainTags demo 5 [⟨[], none⟩, ⟨[], some "C"⟩, ⟨[], some "L"⟩] = .val true := by decide +kernel
theorem demo_untagged : mainTags demo 5 [⟨[], none⟩, ⟨[], some "C"⟩] = .val false := by decide +kernel

example : ∃ w ∈ ([⟨[], none⟩, ⟨[], some "C"⟩, ⟨[], some "L"⟩] : List Wire), Tagged demo w := (C104_tags_partial 5 _ true demo_tagged).1 rfl
example : ¬ ∃ w ∈ ([⟨[], none⟩, ⟨[], some "C"⟩] : List Wire), Tagged demo w :=
  fun h => by simpa using (C104_tags_partial 5 _ false demo_untagged).2 h
example : mainTags demo 2 [⟨[], some "L"⟩, ⟨[], some "C"⟩, ⟨[], none⟩] ≠ .val false := fun h => by
  have := C104_order (buses := demo) demo _ _ 5 2 true false (by decide) (fun b => by
    cases e : demo b with
    | none => exact .inl ⟨rfl, rfl⟩
    | some l => exact .inr ⟨l, l, rfl, rfl, .refl _⟩) demo_tagged h
  cases this
example : ∃ v, mainTags demo 2 [⟨[], some "L"⟩, ⟨[], some "C"⟩] = .val v := by
  refine C104_ends_partial (fun b => if b = "L" then 1 else 0) _ ?_ ?_ 2 ?_
  · intro w m b hb
    simp only [List.mem_cons, List.not_mem_nil, or_false] at m
    rcases m with rfl | rfl <;> cases hb <;> exact ⟨_, rfl⟩
  · intro b l h f m c hc
    unfold demo at h
    split at h
    · cases h
      simp only [List.mem_cons, List.not_mem_nil, or_false] at m
      rcases m with rfl | rfl <;> cases hc
    · split at h
      · rename_i hL
        cases h
        simp only [List.mem_cons, List.not_mem_nil, or_false] at m
        rcases m with rfl | rfl <;> cases hc
        exact ⟨⟨_, rfl⟩, by simp [hL]⟩
      · split at h
        · cases h
          simp only [List.mem_cons, List.not_mem_nil, or_false] at m
          subst m
          cases hc
        · cases h
  · intro w m b _
    split <;> omega

end Verif.Props.MainTags
