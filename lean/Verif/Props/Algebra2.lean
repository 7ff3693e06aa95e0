import Verif.Props.Algebra

/-! # Properties C17, C18: renumbering and classification of constraints -/

set_option linter.unusedSectionVars false

namespace Verif.Props.Algebra
open Verif.Algebra
open Verif.ModArith (Res Fail)

variable {K : Type} [DecidableEq K] [Inhabited K] {p : Nat}

/-! ## C17 -/

/-- Offsets: constant wire fixed, every other wire moved; coefficients travel with their signal; meaning preserved. -/
theorem C17_offset (k : Constraint Nat) (ha : k.a.WF) (hb : k.b.WF) (hc : k.c.WF) (offset : Nat) :
    (∀ ρ : Nat → ZMod p, (k.applyOffset offset).Holds ρ ↔
      k.Holds (fun x => ρ (if x = 0 then 0 else x + offset))) ∧
    (∀ x, x ≠ 0 → (k.applyOffset offset).a.get (x + offset) = k.a.get x ∧
      (k.applyOffset offset).b.get (x + offset) = k.b.get x ∧
      (k.applyOffset offset).c.get (x + offset) = k.c.get x) ∧
    (k.applyOffset offset).a.get 0 = k.a.get 0 ∧ (k.applyOffset offset).b.get 0 = k.b.get 0 ∧
    (k.applyOffset offset).c.get 0 = k.c.get 0 ∧
    (∀ y, (k.applyOffset offset).Occurs y → ∃ x, k.Occurs x ∧ y = if x = 0 then 0 else x + offset) := by
  have key : ∀ (m : CMap Nat) (_ : m.WF) x, CMap.get (rawOffset m offset) (offsetMap offset x) = m.get x := by
    intro m hw x
    rw [rawOffset_eq m hw, get_rename _ _ _ (fun y _ h => offsetMap_inj offset h)]
  have hev : ∀ (m : CMap Nat) (_ : m.WF) (ρ : Nat → ZMod p),
      ev ρ (rawOffset m offset) = ev (fun x => ρ (offsetMap offset x)) m := by
    intro m hw ρ; rw [rawOffset_eq m hw, ev_rename]
  have hkeys : ∀ (m : CMap Nat) (_ : m.WF) y, y ∈ CMap.keys (rawOffset m offset) →
      ∃ x ∈ m.keys, y = offsetMap offset x := by
    intro m hw y hy
    rw [rawOffset_eq m hw, keys_rename] at hy
    obtain ⟨x, hx, rfl⟩ := List.mem_map.1 hy
    exact ⟨x, hx, rfl⟩
  have h0 : offsetMap offset 0 = 0 := by simp [offsetMap]
  have h1 : ∀ x, x ≠ 0 → offsetMap offset x = x + offset := fun x hx => by simp [offsetMap, hx]
  refine ⟨fun ρ => ?_, fun x hx => ?_, ?_, ?_, ?_, ?_⟩
  · unfold Constraint.Holds Constraint.applyOffset
    simp only [hev _ ha, hev _ hb, hev _ hc]
    rfl
  · rw [← h1 x hx]; exact ⟨key _ ha x, key _ hb x, key _ hc x⟩
  · have := key _ ha 0; rw [h0] at this; exact this
  · have := key _ hb 0; rw [h0] at this; exact this
  · have := key _ hc 0; rw [h0] at this; exact this
  · rintro y (h | h | h)
    · obtain ⟨x, hx, rfl⟩ := hkeys _ ha y h; exact ⟨x, Or.inl hx, rfl⟩
    · obtain ⟨x, hx, rfl⟩ := hkeys _ hb y h; exact ⟨x, Or.inr (Or.inl hx), rfl⟩
    · obtain ⟨x, hx, rfl⟩ := hkeys _ hc y h; exact ⟨x, Or.inr (Or.inr hx), rfl⟩

/-- Spec: a renaming is usable for a constraint: defined and injective on the signals, never naming the constant. -/
structure GoodRenaming {K' : Type} [Inhabited K'] (k : Constraint K) (map : K → Option K') : Prop where
  defined : ∀ x, k.Occurs x → x ≠ default → ∃ y, map x = some y ∧ y ≠ default
  inj : ∀ x y z, k.Occurs x → k.Occurs y → map x = some z → map y = some z → x = y

/-- Correspondence maps: defined, injective and constant-avoiding maps preserve meaning and coefficients. -/
theorem C17_correspondence {K' : Type} [DecidableEq K'] [Inhabited K'] (k : Constraint K)
    (ha : k.a.WF) (hb : k.b.WF) (hc : k.c.WF) (map : K → Option K') (hg : GoodRenaming k map) :
    ∃ k', k.applyCorrespondence map = .ok k' ∧ k'.a.WF ∧ k'.b.WF ∧ k'.c.WF ∧
      (∀ x y, x ≠ default → map x = some y → k.Occurs x →
        k'.a.get y = k.a.get x ∧ k'.b.get y = k.b.get x ∧ k'.c.get y = k.c.get x) ∧
      (k'.a.get default = k.a.get default ∧ k'.b.get default = k.b.get default ∧
        k'.c.get default = k.c.get default) ∧
      (∀ (ρ : K → ZMod p) (ρ' : K' → ZMod p), ρ default = ρ' default →
        (∀ x y, k.Occurs x → x ≠ default → map x = some y → ρ x = ρ' y) → (k'.Holds ρ' ↔ k.Holds ρ)) ∧
      (∀ y, k'.Occurs y → y = default ∨ ∃ x, k.Occurs x ∧ x ≠ default ∧ map x = some y) := by
  have cinj : ∀ x y, k.Occurs x → k.Occurs y → corrMap map x = corrMap map y → x = y := by
    intro x y hx hy h
    unfold corrMap at h
    by_cases h1 : x = default
    · by_cases h2 : y = default
      · rw [h1, h2]
      · obtain ⟨z, hz, hzd⟩ := hg.defined y hy h2
        rw [if_pos h1, if_neg h2, hz] at h
        exact absurd h.symm hzd
    · obtain ⟨w, hw, hwd⟩ := hg.defined x hx h1
      by_cases h2 : y = default
      · rw [if_neg h1, if_pos h2, hw] at h
        exact absurd h hwd
      · obtain ⟨z, hz, hzd⟩ := hg.defined y hy h2
        rw [if_neg h1, if_neg h2, hw, hz] at h
        simp only [Option.getD_some] at h
        subst h
        exact hg.inj x y w hx hy hw hz
  have key : ∀ m : CMap K, m.WF → (∀ x ∈ m.keys, k.Occurs x) →
      rawCorrespondence m map = .ok (m.map (fun e => (corrMap map e.1, e.2))) ∧
      CMap.WF (m.map (fun e => (corrMap map e.1, e.2))) := by
    intro m hw hsub
    have hin : ∀ x ∈ m.keys, ∀ y ∈ m.keys, corrMap map x = corrMap map y → x = y :=
      fun x hx y hy => cinj x y (hsub x hx) (hsub y hy)
    refine ⟨?_, wf_rename _ hw hin⟩
    rw [rawCorrespondence_ok m map, foldl_insert_rename (corrMap map) m [] hw hin (by simp), List.nil_append]
    intro x hx hxd
    obtain ⟨y, hy, _⟩ := hg.defined x (hsub x hx) hxd
    rw [hy]; rfl
  obtain ⟨a1, a2⟩ := key k.a ha (fun x hx => Or.inl hx)
  obtain ⟨b1, b2⟩ := key k.b hb (fun x hx => Or.inr (Or.inl hx))
  obtain ⟨c1, c2⟩ := key k.c hc (fun x hx => Or.inr (Or.inr hx))
  have hcm : ∀ x y, x ≠ default → map x = some y → corrMap map x = y := fun x y h1 h2 => by
    simp [corrMap, h1, h2]
  have hcd : corrMap map (default : K) = (default : K') := by simp [corrMap]
  refine ⟨⟨_, _, _⟩, by simp only [Constraint.applyCorrespondence, a1, b1, c1, ok_bind], a2, b2, c2, ?_, ?_, ?_, ?_⟩
  · intro x y hxd hxy hx
    rw [← hcm x y hxd hxy]
    exact ⟨get_rename _ _ _ (fun z hz => cinj z x (Or.inl hz) hx),
      get_rename _ _ _ (fun z hz => cinj z x (Or.inr (Or.inl hz)) hx),
      get_rename _ _ _ (fun z hz => cinj z x (Or.inr (Or.inr hz)) hx)⟩
  · rw [← hcd]
    have hz : ∀ z, k.Occurs z → corrMap map z = corrMap map default → z = default := by
      intro z hz h
      by_contra hne
      obtain ⟨y, hy, hyd⟩ := hg.defined z hz hne
      rw [hcm z y hne hy, hcd] at h
      exact hyd h
    exact ⟨get_rename _ _ _ (fun z hz' => hz z (Or.inl hz')),
      get_rename _ _ _ (fun z hz' => hz z (Or.inr (Or.inl hz'))),
      get_rename _ _ _ (fun z hz' => hz z (Or.inr (Or.inr hz')))⟩
  · intro ρ ρ' h0 h1
    have hagree : ∀ x, k.Occurs x → ρ' (corrMap map x) = ρ x := by
      intro x hx
      by_cases hxd : x = default
      · subst hxd; rw [hcd, h0]
      · obtain ⟨y, hy, _⟩ := hg.defined x hx hxd
        rw [hcm x y hxd hy, h1 x y hx hxd hy]
    unfold Constraint.Holds
    simp only [ev_rename]
    rw [ev_congr (fun x => ρ' (corrMap map x)) ρ k.a (fun x hx => hagree x (Or.inl hx)),
      ev_congr (fun x => ρ' (corrMap map x)) ρ k.b (fun x hx => hagree x (Or.inr (Or.inl hx))),
      ev_congr (fun x => ρ' (corrMap map x)) ρ k.c (fun x hx => hagree x (Or.inr (Or.inr hx)))]
  · intro y hy
    have : ∃ x, k.Occurs x ∧ y = corrMap map x := by
      rcases hy with h | h | h <;> (simp only [keys_rename] at h; obtain ⟨x, hx, rfl⟩ := List.mem_map.1 h)
      · exact ⟨x, Or.inl hx, rfl⟩
      · exact ⟨x, Or.inr (Or.inl hx), rfl⟩
      · exact ⟨x, Or.inr (Or.inr hx), rfl⟩
    obtain ⟨x, hx, rfl⟩ := this
    by_cases hxd : x = default
    · subst hxd; exact Or.inl hcd
    · obtain ⟨z, hz, _⟩ := hg.defined x hx hxd
      right; exact ⟨x, hx, hxd, by rw [hcm x z hxd hz]; exact hz⟩

/-- The abort path: an unmapped signal. -/
theorem C17_unknown_signal {K' : Type} [DecidableEq K'] [Inhabited K'] (k : Constraint K) (map : K → Option K')
    (x : K) (hx : k.Occurs x) (hxd : x ≠ default) (hm : map x = none) :
    k.applyCorrespondence map = .error .panic := by
  unfold Constraint.applyCorrespondence
  have ok_or : ∀ m : CMap K, rawCorrespondence m map = .error .panic ∨ ∃ m', rawCorrespondence m map = .ok m' := by
    intro m
    by_cases h : ∃ x ∈ m.keys, x ≠ default ∧ map x = none
    · exact Or.inl (rawCorrespondence_panic m map h)
    · right
      refine ⟨_, rawCorrespondence_ok m map fun y hy hyd => ?_⟩
      by_contra hcon
      exact h ⟨y, hy, hyd, by simpa using hcon⟩
  rcases hx with h | h | h
  · rw [rawCorrespondence_panic k.a map ⟨x, h, hxd, hm⟩]; rfl
  · rcases ok_or k.a with h1 | ⟨a, h1⟩
    · rw [h1]; rfl
    · rw [h1, rawCorrespondence_panic k.b map ⟨x, h, hxd, hm⟩]; rfl
  · rcases ok_or k.a with h1 | ⟨a, h1⟩
    · rw [h1]; rfl
    · rcases ok_or k.b with h2 | ⟨b, h2⟩
      · rw [h1, h2]; rfl
      · rw [h1, h2, rawCorrespondence_panic k.c map ⟨x, h, hxd, hm⟩]; rfl

/-- Renaming through a witness vector. -/
theorem C17_witness (k : Constraint Nat) (ha : k.a.WF) (hb : k.b.WF) (hc : k.c.WF) (w : List Nat)
    (hlen : ∀ x, k.Occurs x → x < w.length)
    (hinj : ∀ x y, k.Occurs x → k.Occurs y → w[x]? = w[y]? → x = y) :
    ∃ k', k.applyWitness w = .ok k' ∧
      ∀ (ρ ρ' : Nat → ZMod p), (∀ x y, k.Occurs x → w[x]? = some y → ρ x = ρ' y) → (k'.Holds ρ' ↔ k.Holds ρ) := by
  have key : ∀ m : CMap Nat, m.WF → (∀ x ∈ m.keys, k.Occurs x) →
      rawWitness m w = .ok (m.map (fun e => (w.getD e.1 0, e.2))) := by
    intro m hw hsub
    rw [rawWitness_ok m w (fun x hx => hlen x (hsub x hx)),
      foldl_insert_rename (fun x => w.getD x 0) m [] hw ?_ (by simp), List.nil_append]
    intro x hx y hy h
    refine hinj x y (hsub x hx) (hsub y hy) ?_
    have h1 := hlen x (hsub x hx)
    have h2 := hlen y (hsub y hy)
    rw [List.getElem?_eq_getElem h1, List.getElem?_eq_getElem h2]
    rw [List.getD_eq_getElem w 0 h1, List.getD_eq_getElem w 0 h2] at h
    rw [h]
  have a1 := key k.a ha (fun x hx => Or.inl hx)
  have b1 := key k.b hb (fun x hx => Or.inr (Or.inl hx))
  have c1 := key k.c hc (fun x hx => Or.inr (Or.inr hx))
  refine ⟨⟨k.a.map (fun e => (w.getD e.1 0, e.2)), k.b.map (fun e => (w.getD e.1 0, e.2)),
    k.c.map (fun e => (w.getD e.1 0, e.2))⟩, by simp only [Constraint.applyWitness, a1, b1, c1, ok_bind], ?_⟩
  intro ρ ρ' h
  have hagree : ∀ x, k.Occurs x → ρ' (w.getD x 0) = ρ x := by
    intro x hx
    have h1 := hlen x hx
    exact (h x _ hx (by rw [List.getElem?_eq_getElem h1, List.getD_eq_getElem w 0 h1])).symm
  unfold Constraint.Holds
  have hr := fun m => ev_rename (K := Nat) (fun x => w.getD x 0) ρ' m
  simp only [hr]
  rw [ev_congr _ ρ k.a (fun x hx => hagree x (Or.inl hx)),
    ev_congr _ ρ k.b (fun x hx => hagree x (Or.inr (Or.inl hx))),
    ev_congr _ ρ k.c (fun x hx => hagree x (Or.inr (Or.inr hx)))]

example : let k : Constraint Nat := ⟨[], [], [(0, 12), (1, 3)]⟩
    k.c.WF ∧ k.applyOffset 7 = ⟨[], [], [(0, 12), (8, 3)]⟩ ∧
    k.applyCorrespondence (fun x => if x = 1 then some "out" else none) = .ok ⟨[], [], [("", 12), ("out", 3)]⟩ := by
  refine ⟨by unfold CMap.WF; decide, by decide, by decide⟩

/-! ## C18 -/

theorem isLinear_of (k : Constraint K) (h : (k.a.isEmpty && k.b.isEmpty) = true) : k.a = [] ∧ k.b = [] := by
  simpa [List.isEmpty_iff] using h

/-- Equality classification: two distinct signals, no constant, satisfied exactly when they are equal. -/
theorem C18_equality (hp : p.Prime) (k : Constraint K) (hcl : Clean p k) (h : k.isEquality p = true) :
    ∃ s t, s ≠ t ∧ s ≠ default ∧ t ≠ default ∧ k.c.keys = [s, t] ∧
      ∀ ρ : K → ZMod p, k.Holds ρ ↔ ρ s = ρ t := by
  unfold Constraint.isEquality at h
  split at h
  · rename_i h1
    simp only [Bool.and_eq_true, Bool.not_eq_true'] at h1
    obtain ⟨⟨h1, h2⟩, h3⟩ := h1
    have ha : k.a = [] := List.isEmpty_iff.1 h1
    have hb : k.b = [] := List.isEmpty_iff.1 h2
    split at h
    · rename_i s c0 t c1 heq
      have hd : default ∉ k.c.keys := by
        rw [← CMap.contains_iff, h3]; simp
      have hw := hcl.wc
      rw [heq] at hd hw
      have hst : s ≠ t := by
        have := (CMap.wf_cons.1 hw).1
        simpa [CMap.keys] using this
      simp only [CMap.keys, List.map_cons, List.map_nil, List.mem_cons, List.not_mem_nil, or_false, not_or] at hd
      refine ⟨s, t, hst, fun h => hd.1 h.symm, fun h => hd.2 h.symm, by rw [heq]; rfl, fun ρ => ?_⟩
      have h0 : ModArith.mul (-1) c1 p = c0 := by simpa using h
      have hc1 := hcl.cc (t, c1) (by rw [heq]; simp)
      have hz1 := hcl.zc (t, c1) (by rw [heq]; simp)
      have hne : (c1 : ZMod p) ≠ 0 := cast_ne_zero_of_canonical hc1.1 hc1.2 hz1
      have hc0 : (c0 : ZMod p) = -(c1 : ZMod p) := by
        rw [← h0, ModArith.mul_cast _ _ _ hp.pos]; push_cast; ring
      unfold Constraint.Holds
      rw [ha, hb, heq]
      simp only [ev_nil, ev_cons, mul_zero, add_zero, hc0]
      have : Fact p.Prime := ⟨hp⟩
      constructor
      · intro h
        have : (c1 : ZMod p) * (ρ s) = (c1 : ZMod p) * ρ t := by linear_combination h
        exact mul_left_cancel₀ hne this
      · intro h; rw [h]; ring
    · cases h
  · cases h

/-- Constant-equality classification: a single signal, satisfied exactly when it has one fixed value. -/
theorem C18_constant_equality (hp : p.Prime) (k : Constraint K) (hcl : Clean p k)
    (h : k.isConstantEquality = true) :
    ∃ s x, s ≠ default ∧ s ∈ k.c.keys ∧ (∀ t ∈ k.c.keys, t = s ∨ t = default) ∧
      ∀ ρ : K → ZMod p, ρ default = 1 → (k.Holds ρ ↔ ρ s = x) := by
  have : Fact p.Prime := ⟨hp⟩
  unfold Constraint.isConstantEquality at h
  simp only [Bool.and_eq_true, Bool.or_eq_true, Bool.not_eq_true', decide_eq_true_eq] at h
  obtain ⟨⟨h1, h2⟩, h3⟩ := h
  have ha : k.a = [] := List.isEmpty_iff.1 h1
  have hb : k.b = [] := List.isEmpty_iff.1 h2
  have solve : ∀ (c d : Int), (c : ZMod p) ≠ 0 → ∀ y : ZMod p,
      (0 = (c : ZMod p) * y + d ↔ y = -(d : ZMod p) / c) := by
    intro c d hc y
    rw [eq_div_iff hc]
    constructor
    · intro h; linear_combination -h
    · intro h; linear_combination -h
  have hw := hcl.wc
  have hcc := hcl.cc
  have hzc := hcl.zc
  rcases h3 with ⟨h3, h4⟩ | ⟨h3, h4⟩
  · obtain ⟨⟨s0, c0⟩, ⟨s1, c1⟩, heq⟩ := List.length_eq_two.1 h4
    rw [heq] at hw hcc hzc
    have hmem := (CMap.contains_iff _ _).1 h3
    rw [heq] at hmem
    have hst : s0 ≠ s1 := by
      have := (CMap.wf_cons.1 hw).1
      simpa [CMap.keys] using this
    have n0 : (c0 : ZMod p) ≠ 0 := cast_ne_zero_of_canonical (hcc (s0, c0) (by simp)).1
      (hcc (s0, c0) (by simp)).2 (hzc (s0, c0) (by simp))
    have n1 : (c1 : ZMod p) ≠ 0 := cast_ne_zero_of_canonical (hcc (s1, c1) (by simp)).1
      (hcc (s1, c1) (by simp)).2 (hzc (s1, c1) (by simp))
    simp only [CMap.keys, List.map_cons, List.map_nil, List.mem_cons, List.not_mem_nil, or_false] at hmem
    rcases hmem with hd | hd
    · refine ⟨s1, -(c0 : ZMod p) / c1, fun h => hst (hd.symm.trans h.symm), by rw [heq]; simp, ?_, ?_⟩
      · intro t ht; rw [heq] at ht
        simp only [CMap.keys, List.map_cons, List.map_nil, List.mem_cons, List.not_mem_nil, or_false] at ht
        rcases ht with rfl | rfl
        · exact Or.inr hd.symm
        · exact Or.inl rfl
      · intro ρ hρ
        unfold Constraint.Holds
        rw [ha, hb, heq]
        simp only [ev_nil, ev_cons, mul_zero, add_zero, ← hd, hρ, mul_one]
        rw [← solve c1 c0 n1, add_comm]
    · refine ⟨s0, -(c1 : ZMod p) / c0, fun h => hst (h.trans hd), by rw [heq]; simp, ?_, ?_⟩
      · intro t ht; rw [heq] at ht
        simp only [CMap.keys, List.map_cons, List.map_nil, List.mem_cons, List.not_mem_nil, or_false] at ht
        rcases ht with rfl | rfl
        · exact Or.inl rfl
        · exact Or.inr hd.symm
      · intro ρ hρ
        unfold Constraint.Holds
        rw [ha, hb, heq]
        simp only [ev_nil, ev_cons, mul_zero, add_zero, ← hd, hρ, mul_one]
        rw [← solve c0 c1 n0]
  · obtain ⟨⟨s0, c0⟩, heq⟩ := List.length_eq_one_iff.1 h4
    rw [heq] at hw hcc hzc
    have hd : default ∉ k.c.keys := by rw [← CMap.contains_iff, h3]; simp
    have n0 : (c0 : ZMod p) ≠ 0 := cast_ne_zero_of_canonical (hcc (s0, c0) (by simp)).1
      (hcc (s0, c0) (by simp)).2 (hzc (s0, c0) (by simp))
    rw [heq] at hd
    refine ⟨s0, 0, fun h => hd (by simp [CMap.keys, h]), by rw [heq]; simp, ?_, ?_⟩
    · intro t ht; rw [heq] at ht; left; simpa [CMap.keys] using ht
    · intro ρ _
      unfold Constraint.Holds
      rw [ha, hb, heq]
      simp only [ev_nil, ev_cons, mul_zero, add_zero]
      constructor
      · intro h
        rcases mul_eq_zero.1 h.symm with h | h
        · exact absurd h n0
        · exact h
      · intro h; rw [h]; ring

/-- The classes are disjoint and both are linear. -/
theorem C18_exclusive (k : Constraint K) (f : Int) :
    ¬ (k.isEquality f = true ∧ k.isConstantEquality = true) ∧
    (k.isEquality f = true → k.isLinear = true) ∧ (k.isConstantEquality = true → k.isLinear = true) := by
  refine ⟨?_, ?_, ?_⟩
  · rintro ⟨h1, h2⟩
    unfold Constraint.isEquality at h1
    unfold Constraint.isConstantEquality at h2
    split at h1
    · rename_i hc
      split at h1
      · rename_i heq
        simp only [Bool.and_eq_true, Bool.not_eq_true'] at hc
        rw [hc.2, heq] at h2
        simp at h2
      · cases h1
    · cases h1
  · intro h1
    unfold Constraint.isEquality at h1
    split at h1
    · rename_i hc
      simp only [Bool.and_eq_true] at hc
      simp [Constraint.isLinear, hc.1.1, hc.1.2]
    · cases h1
  · intro h2
    unfold Constraint.isConstantEquality at h2
    simp only [Bool.and_eq_true] at h2
    simp [Constraint.isLinear, h2.1.1, h2.1.2]

/-- The equality test does not depend on the order in which the hash map lists the two signals. -/
theorem C18_equality_order (hp : 1 < p) (k k' : Constraint K) (ha : k'.a = k.a) (hb : k'.b = k.b)
    (hcan : CanonMap p k.c) (hperm : k.c.Perm k'.c) : k.isEquality p = k'.isEquality p := by
  have hp' : (0 : Int) < p := by exact_mod_cast (by omega : 0 < p)
  have sym : ∀ c0 c1 : Int, 0 ≤ c0 → c0 < p → ModArith.mul (-1) c1 p = c0 → 0 ≤ c1 → c1 < p →
      ModArith.mul (-1) c0 p = c1 := by
    intro c0 c1 h0 h1 h h2 h3
    unfold ModArith.mul at h ⊢
    rw [ModArith.modulus_eq_emod _ hp'] at h ⊢
    have : (-1 * c0) ≡ c1 [ZMOD p] := by
      rw [← h]
      have := (Int.mod_modEq (-1 * c1) p).mul_left (-1)
      refine this.trans ?_
      rw [show -1 * (-1 * c1) = c1 by ring]
    rw [this.eq, Int.emod_eq_of_lt h2 h3]
  have hcont : k.c.contains default = k'.c.contains default := by
    have hk : ∀ x, x ∈ k.c.keys ↔ x ∈ k'.c.keys := fun x => (hperm.map Prod.fst).mem_iff
    rw [Bool.eq_iff_iff, CMap.contains_iff, CMap.contains_iff, hk]
  unfold Constraint.isEquality
  rw [ha, hb, hcont]
  split
  · have hlen := hperm.length_eq
    match hkc : k.c, hkc' : k'.c with
    | [(s0, c0), (s1, c1)], [(t0, d0), (t1, d1)] =>
      rw [hkc, hkc'] at hperm
      rw [hkc] at hcan
      have r0 := hcan (s0, c0) (by simp)
      have r1 := hcan (s1, c1) (by simp)
      have hmem : (t0, d0) ∈ [(s0, c0), (s1, c1)] := hperm.mem_iff.2 (by simp)
      simp only [List.mem_cons, List.not_mem_nil, or_false] at hmem
      rcases hmem with h | h
      · rw [h] at hperm
        have := (List.perm_cons _).1 hperm
        rw [List.singleton_perm] at this
        injection this with this
        injection h with _ h
        injection this with _ this
        simp [h, this]
      · rw [h] at hperm
        have := (List.perm_cons _).1 ((List.Perm.swap _ _ _).trans hperm)
        rw [List.singleton_perm] at this
        injection this with this
        injection h with _ h
        injection this with _ this
        simp only [h, ← this]
        rw [decide_eq_decide]
        exact ⟨fun hh => sym _ _ r0.1 r0.2 hh r1.1 r1.2, fun hh => sym _ _ r1.1 r1.2 hh r0.1 r0.2⟩
    | [], [] => rfl
    | [_], [_] => rfl
    | _ :: _ :: _ :: _, _ :: _ :: _ :: _ => rfl
    | [], _ :: _ => simp [hkc, hkc'] at hlen
    | _ :: _, [] => simp [hkc, hkc'] at hlen
    | [_], _ :: _ :: _ => simp [hkc, hkc'] at hlen
    | _ :: _ :: _, [_] => simp [hkc, hkc'] at hlen
    | [_, _], _ :: _ :: _ :: _ => simp [hkc, hkc'] at hlen
    | _ :: _ :: _ :: _, [_, _] => simp [hkc, hkc'] at hlen
  · rfl

example : (⟨[], [], [(3, 7), (5, 250)]⟩ : Constraint Nat).isEquality 257 = true ∧
    (⟨[], [], [(0, 5), (3, 7)]⟩ : Constraint Nat).isConstantEquality = true ∧
    (⟨[], [], [(3, 7), (5, 249)]⟩ : Constraint Nat).isEquality 257 = false := by decide

end Verif.Props.Algebra
