import Verif.StartLemmas

/-! The rounds: signal map, substitution through the map, extraction of linear constraints. -/

set_option linter.unusedSectionVars false
set_option linter.unusedSimpArgs false

namespace Verif.Simplification
open Verif.ModArith (Res Fail)
open Verif.Algebra Verif.Linear Verif.Clusters Verif.Props.Algebra

variable {p : Nat}

/-! ### The signal map -/

/-- The map lists constraint `id` under signal `x`. -/
def Has (map : SigMap) (x id : Nat) : Prop := ∃ l, BMap.get map x = some l ∧ id ∈ l

theorem has_pushId {map : SigMap} (hs : BMap.Sorted map) (s id : Nat) :
    BMap.Sorted (pushId map s id) ∧ ∀ x i, Has (pushId map s id) x i ↔ Has map x i ∨ (x = s ∧ i = id) := by
  unfold pushId Has
  cases hg : BMap.get map s with
  | none =>
    refine ⟨BMap.sorted_insert hs _ _, fun x i => ?_⟩
    simp only [BMap.get_insert _ _ _ _ hs]
    by_cases hx : x = s
    · subst hx; simp [hg]
    · simp [hx]
  | some l =>
    refine ⟨BMap.sorted_insert hs _ _, fun x i => ?_⟩
    simp only [BMap.get_insert _ _ _ _ hs]
    by_cases hx : x = s
    · subst hx; simp [hg]
    · simp [hx]

theorem has_pushFold (keys : List Nat) (id : Nat) : ∀ (map : SigMap), BMap.Sorted map →
    BMap.Sorted (keys.foldl (fun m s => pushId m s id) map) ∧
    ∀ x i, Has (keys.foldl (fun m s => pushId m s id) map) x i ↔ Has map x i ∨ (x ∈ keys ∧ i = id) := by
  induction keys with
  | nil => intro map hs; exact ⟨hs, by simp⟩
  | cons k keys ih =>
    intro map hs
    obtain ⟨h1, h2⟩ := has_pushId hs k id
    obtain ⟨h3, h4⟩ := ih _ h1
    refine ⟨h3, fun x i => ?_⟩
    rw [List.foldl_cons, h4, h2]
    simp only [List.mem_cons]; tauto

/-- The map is sound and complete for a storage. -/
structure MapOK (map : SigMap) (storage : List C) : Prop where
  sorted : BMap.Sorted map
  complete : ∀ id c, storage[id]? = some c → ∀ x, x ≠ 0 → c.Occurs x → Has map x id
  ids : ∀ x id, Has map x id → id < storage.length

theorem buildMap_spec (cs : List C) : ∀ (pre : List C) (map : SigMap), MapOK map pre →
    MapOK (buildMap cs pre.length map) (pre ++ cs) := by
  induction cs with
  | nil => intro pre map h; simpa [buildMap] using h
  | cons c cs ih =>
    intro pre map h
    obtain ⟨h1, h2⟩ := has_pushFold (signalSet c) pre.length map h.sorted
    have := ih (pre ++ [c]) ((signalSet c).foldl (fun m s => pushId m s pre.length) map) ⟨h1, ?_, ?_⟩
    · unfold buildMap
      rw [List.length_append, List.length_singleton] at this
      simpa using this
    · intro id d hd x hx ho
      rw [h2]
      by_cases hid : id < pre.length
      · rw [List.getElem?_append_left hid] at hd
        exact Or.inl (h.complete id d hd x hx ho)
      · rw [List.getElem?_append_right (by omega)] at hd
        have hlt := (List.getElem?_eq_some_iff.1 hd).1
        simp only [List.length_singleton] at hlt
        have hz : id - pre.length = 0 := by omega
        rw [hz] at hd
        simp only [List.getElem?_cons_zero, Option.some.injEq] at hd
        subst hd
        exact Or.inr ⟨(mem_signalSet c x).2 ⟨hx, ho⟩, by omega⟩
    · intro x id hh
      rw [h2] at hh
      rw [List.length_append, List.length_singleton]
      rcases hh with hh | ⟨_, rfl⟩
      · have := h.ids x id hh; omega
      · omega

theorem mapOK_nil : MapOK [] [] := ⟨BMap.sorted_nil, by intro id c h; simp at h, by rintro x id ⟨l, h, _⟩; cases h⟩

/-! ### One substitution on one stored constraint -/

/-- A constraint changed by substitutions that all hold whenever `H` does, over new signals `new`. -/
structure Changed (p : Nat) (H : (Nat → ZMod p) → Prop) (new : Nat → Prop) (c c' : C) : Prop where
  clean : Clean p c'
  equiv : ∀ ρ : Nat → ZMod p, ρ 0 = 1 → H ρ → (c'.Holds ρ ↔ c.Holds ρ)
  occurs : ∀ x, c'.Occurs x → x = 0 ∨ c.Occurs x ∨ new x
  linear : c.isLinear = true → c'.isLinear = true

theorem Changed.refl {H : (Nat → ZMod p) → Prop} {new : Nat → Prop} {c : C} (h : Clean p c) : Changed p H new c c :=
  ⟨h, fun _ _ _ => Iff.rfl, fun _ h => Or.inr (Or.inl h), id⟩

theorem Changed.trans {H : (Nat → ZMod p) → Prop} {new : Nat → Prop} {a b c : C} (h : Changed p H new a b)
    (h' : Changed p H new b c) : Changed p H new a c := by
  refine ⟨h'.clean, fun ρ hρ hh => (h'.equiv ρ hρ hh).trans (h.equiv ρ hρ hh), fun x hx => ?_, fun hl => h'.linear (h.linear hl)⟩
  rcases h'.occurs x hx with h1 | h1 | h1
  · exact Or.inl h1
  · exact h.occurs x h1
  · exact Or.inr (Or.inr h1)

theorem Changed.weaken {H H' : (Nat → ZMod p) → Prop} {new new' : Nat → Prop} {a b : C} (h : Changed p H new a b)
    (h1 : ∀ ρ, H' ρ → H ρ) (h2 : ∀ x, new x → new' x) : Changed p H' new' a b := by
  refine ⟨h.clean, fun ρ hρ hh => h.equiv ρ hρ (h1 ρ hh), fun x hx => ?_, h.linear⟩
  rcases h.occurs x hx with h3 | h3 | h3
  · exact Or.inl h3
  · exact Or.inr (Or.inl h3)
  · exact Or.inr (Or.inr (h2 x h3))

theorem isLinear_iff (c : C) : c.isLinear = true ↔ c.a = [] ∧ c.b = [] := by
  constructor
  · exact Verif.Props.Algebra.isLinear_of c
  · rintro ⟨a, b⟩; unfold Constraint.isLinear; rw [a, b]; rfl

theorem subst_fix (hp : 0 < p) {c : C} (hc : Clean p c) (s : S) (h0 : s.frm ≠ 0) (hself : s.frm ∉ s.rhs.keys) :
    ∃ c', (c.applySubstitution s p).fix p = .ok c' ∧ Changed p (fun ρ => s.Holds ρ) (fun x => x ∈ s.rhs.keys) c c' ∧
      ¬ c'.Occurs s.frm := by
  have hg := good_applySubstitution hp hc.good s
  obtain ⟨c', k1, k2, k3, k4, _⟩ := C15_fix hp (c.applySubstitution s p) hg.wa hg.wb hg.wc hg.ca hg.cb hg.cc
  obtain ⟨r1, r2⟩ := C14_removed c s (p : Int) h0 hself
  refine ⟨c', k1, ⟨k2, fun ρ hρ hs => ?_, fun x hx => ?_, fun hl => ?_⟩, fun hx => ?_⟩
  · rw [k3 ρ hρ]; exact (C14_constraint hp c hc.wa hc.wb hc.wc s h0 ρ).2 hs
  · rcases k4 x hx with h | h
    · exact Or.inl h
    · exact r2 x h
  · obtain ⟨ha, hb⟩ := (isLinear_iff c).1 hl
    rw [isLinear_iff]
    refine fix_linear (p : Int) ?_ k1
    have : ZeroOnly c.a := by rw [ha]; intro e he; simp at he
    exact zeroOnly_raw this s h0 p
  · rcases k4 _ hx with h | h
    · exact h0 h
    · exact r1 h

/-- Pointwise relation between two storages. -/
def Pointwise (R : C → C → Prop) (l l' : List C) : Prop :=
  l'.length = l.length ∧ ∀ (j : Nat) (c' : C), l'[j]? = some c' → ∃ c, l[j]? = some c ∧ R c c'

theorem Pointwise.forall₂ {R : C → C → Prop} {l l' : List C} (h : Pointwise R l l') : List.Forall₂ R l l' := by
  rw [List.forall₂_iff_get]
  refine ⟨h.1.symm, fun i h1 h2 => ?_⟩
  obtain ⟨c, hc, hr⟩ := h.2 i l'[i] (List.getElem?_eq_getElem h2)
  rw [List.getElem?_eq_getElem h1] at hc
  injection hc with hc
  simpa [hc] using hr

theorem processIds_spec (hp : 0 < p) (s : S) (h0 : s.frm ≠ 0) (hself : s.frm ∉ s.rhs.keys) (ids : List Nat) :
    ∀ (storage : List C) (map : SigMap), (∀ c ∈ storage, Clean p c) → MapOK map storage → (∀ i ∈ ids, i < storage.length) →
    ∃ lin storage' map', processIds p s ids storage map = .ok (lin, storage', map') ∧
      Pointwise (Changed p (fun ρ => s.Holds ρ) (fun x => x ∈ s.rhs.keys)) storage storage' ∧
      MapOK map' storage' ∧ (∀ x i, Has map x i → Has map' x i) ∧
      (∀ i ∈ lin, ∃ c, storage'[i]? = some c ∧ c.isLinear = true) ∧
      (∀ i ∈ ids, ∀ c, storage'[i]? = some c → ¬ c.Occurs s.frm) := by
  induction ids with
  | nil =>
    intro storage map hcl hm _
    refine ⟨[], storage, map, rfl, ⟨rfl, fun j c h => ⟨c, h, Changed.refl (hcl c (List.mem_of_getElem? h))⟩⟩, hm, fun _ _ h => h, by simp, by simp⟩
  | cons id ids ih =>
    intro storage map hcl hm hids
    have hid := hids id (by simp)
    obtain ⟨c, hc⟩ : ∃ c, storage[id]? = some c := ⟨_, List.getElem?_eq_getElem hid⟩
    obtain ⟨c', k1, k2, k3⟩ := subst_fix hp (hcl c (List.mem_of_getElem? hc)) s h0 hself
    have hcl' : ∀ d ∈ storage.set id c', Clean p d := by
      intro d hd
      rcases List.mem_or_eq_of_mem_set hd with h | h
      · exact hcl d h
      · rw [h]; exact k2.clean
    obtain ⟨f1, f2⟩ := has_pushFold s.rhs.keys id map hm.sorted
    have hget : ∀ j d, (storage.set id c')[j]? = some d → (j = id ∧ d = c') ∨ (j ≠ id ∧ storage[j]? = some d) := by
      intro j d hd
      rw [List.getElem?_set] at hd
      by_cases hj : id = j
      · rw [if_pos hj, if_pos hid] at hd
        injection hd with hd
        exact Or.inl ⟨hj.symm, hd.symm⟩
      · rw [if_neg hj] at hd
        exact Or.inr ⟨fun h => hj h.symm, hd⟩
    have hm' : MapOK (s.rhs.keys.foldl (fun m x => pushId m x id) map) (storage.set id c') := by
      refine ⟨f1, fun j d hd x hx ho => ?_, fun x j hh => ?_⟩
      · rw [f2]
        rcases hget j d hd with ⟨rfl, rfl⟩ | ⟨_, hd⟩
        · rcases k2.occurs x ho with h | h | h
          · exact absurd h hx
          · exact Or.inl (hm.complete _ c hc x hx h)
          · exact Or.inr ⟨h, rfl⟩
        · exact Or.inl (hm.complete j d hd x hx ho)
      · rw [f2] at hh
        rw [List.length_set]
        rcases hh with hh | ⟨_, rfl⟩
        · exact hm.ids x j hh
        · exact hid
    obtain ⟨lin, storage', map', g1, g2, g3, g4, g5, g6⟩ := ih (storage.set id c') _ hcl' hm' (by
      intro i hi; rw [List.length_set]; exact hids i (by simp [hi]))
    have hpt : Pointwise (Changed p (fun ρ => s.Holds ρ) (fun x => x ∈ s.rhs.keys)) storage storage' := by
      refine ⟨by rw [g2.1, List.length_set], fun j d hd => ?_⟩
      obtain ⟨e, he, hr⟩ := g2.2 j d hd
      rcases hget j e he with ⟨rfl, rfl⟩ | ⟨_, he⟩
      · exact ⟨c, hc, k2.trans hr⟩
      · exact ⟨e, he, hr⟩
    refine ⟨if c'.isLinear then id :: lin else lin, storage', map', ?_, hpt, g3, fun x i hh => g4 x i ((f2 x i).2 (Or.inl hh)), ?_, ?_⟩
    · unfold processIds
      simp only [hc, k1, ok_bind, g1]
    · intro i hi
      split at hi
      · rename_i hl
        rcases List.mem_cons.1 hi with rfl | hi
        · have hlen : i < storage'.length := by rw [hpt.1]; exact hid
          obtain ⟨d, hd⟩ : ∃ d, storage'[i]? = some d := ⟨_, List.getElem?_eq_getElem hlen⟩
          obtain ⟨e, he, hr⟩ := g2.2 i d hd
          rcases hget i e he with ⟨_, rfl⟩ | ⟨h, _⟩
          · exact ⟨d, hd, hr.linear hl⟩
          · exact absurd rfl h
        · exact g5 i hi
      · exact g5 i hi
    · intro i hi d hd
      by_cases hii : i ∈ ids
      · exact g6 i hii d hd
      · have hie : i = id := by
          rcases List.mem_cons.1 hi with h | h
          · exact h
          · exact absurd h hii
        subst hie
        obtain ⟨e, he, hr⟩ := g2.2 i d hd
        rcases hget i e he with ⟨_, rfl⟩ | ⟨h, _⟩
        · intro hx
          rcases hr.occurs _ hx with h | h | h
          · exact h0 h
          · exact k3 h
          · exact hself h
        · exact absurd rfl h

theorem substituteMap_spec (hp : 0 < p) (subs : List S) : ∀ (storage : List C) (map : SigMap), (∀ s ∈ subs, s.frm ≠ 0) →
    (∀ s ∈ subs, ∀ t ∈ subs, s.frm ∉ t.rhs.keys) → (∀ c ∈ storage, Clean p c) → MapOK map storage →
    ∃ lin storage' map', substituteMap p subs storage map = .ok (lin, storage', map') ∧
      Pointwise (Changed p (fun ρ => ∀ s ∈ subs, s.Holds ρ) (fun x => ∃ s ∈ subs, x ∈ s.rhs.keys)) storage storage' ∧
      MapOK map' storage' ∧ (∀ x i, Has map x i → Has map' x i) ∧
      (∀ i ∈ lin, ∃ c, storage'[i]? = some c ∧ c.isLinear = true) ∧
      (∀ s ∈ subs, ∀ c ∈ storage', ¬ c.Occurs s.frm) := by
  induction subs with
  | nil =>
    intro storage map _ _ hcl hm
    exact ⟨[], storage, map, rfl, ⟨rfl, fun j c h => ⟨c, h, Changed.refl (hcl c (List.mem_of_getElem? h))⟩⟩, hm, fun _ _ h => h, by simp, by simp⟩
  | cons s subs ih =>
    intro storage map h0 hd hcl hm
    have h0s := h0 s (by simp)
    have hself := hd s (by simp) s (by simp)
    -- after the first substitution
    have step : ∃ lin storage1 map1, (match BMap.get map s.frm with
          | none => Except.ok (([] : List Nat), storage, map)
          | some ids => processIds p s ids storage map) = .ok (lin, storage1, map1) ∧
        Pointwise (Changed p (fun ρ => s.Holds ρ) (fun x => x ∈ s.rhs.keys)) storage storage1 ∧
        MapOK map1 storage1 ∧ (∀ x i, Has map x i → Has map1 x i) ∧
        (∀ i ∈ lin, ∃ c, storage1[i]? = some c ∧ c.isLinear = true) ∧ ∀ c ∈ storage1, ¬ c.Occurs s.frm := by
      cases hg : BMap.get map s.frm with
      | none =>
        refine ⟨[], storage, map, rfl, ⟨rfl, fun j c h => ⟨c, h, Changed.refl (hcl c (List.mem_of_getElem? h))⟩⟩, hm, fun _ _ h => h, by simp, ?_⟩
        intro c hc hx
        obtain ⟨j, hj, rfl⟩ := List.getElem_of_mem hc
        obtain ⟨l, hl, _⟩ := hm.complete j _ (List.getElem?_eq_getElem hj) _ h0s hx
        rw [hg] at hl; cases hl
      | some ids =>
        obtain ⟨lin, s1, m1, g1, g2, g3, g4, g5, g6⟩ := processIds_spec hp s h0s hself ids storage map hcl hm
          (fun i hi => hm.ids s.frm i ⟨ids, hg, hi⟩)
        refine ⟨lin, s1, m1, g1, g2, g3, g4, g5, fun c hc hx => ?_⟩
        obtain ⟨j, hj, rfl⟩ := List.getElem_of_mem hc
        obtain ⟨d, hd', hr⟩ := g2.2 j _ (List.getElem?_eq_getElem hj)
        rcases hr.occurs _ hx with h | h | h
        · exact h0s h
        · obtain ⟨l, hl, hjl⟩ := hm.complete j d hd' _ h0s h
          rw [hg] at hl
          injection hl with hl
          subst hl
          exact g6 j hjl _ (List.getElem?_eq_getElem hj) hx
        · exact hself h
    obtain ⟨lin1, s1, m1, e1, e2, e3, e4, e5, e6⟩ := step
    have hcl1 : ∀ c ∈ s1, Clean p c := by
      intro c hc
      obtain ⟨j, hj, rfl⟩ := List.getElem_of_mem hc
      obtain ⟨d, _, hr⟩ := e2.2 j _ (List.getElem?_eq_getElem hj)
      exact hr.clean
    obtain ⟨lin2, s2, m2, f1, f2, f3, f4, f5, f6⟩ := ih s1 m1 (fun t ht => h0 t (by simp [ht]))
      (fun t ht u hu => hd t (by simp [ht]) u (by simp [hu])) hcl1 e3
    have hlast : ∀ c ∈ s2, ¬ c.Occurs s.frm := by
      intro c hc hx
      obtain ⟨j, hj, rfl⟩ := List.getElem_of_mem hc
      obtain ⟨d, hd', hr⟩ := f2.2 j _ (List.getElem?_eq_getElem hj)
      rcases hr.occurs _ hx with h | h | ⟨t, ht, h⟩
      · exact h0s h
      · exact e6 d (List.mem_of_getElem? hd') h
      · exact hd s (by simp) t (by simp [ht]) h
    have key : substituteMap (p : Int) (s :: subs) storage map = (do
        let (linear, storage, map) ← (match BMap.get map s.frm with
          | none => Except.ok (([] : List Nat), storage, map)
          | some ids => processIds p s ids storage map)
        let (linear', storage, map) ← substituteMap (p : Int) subs storage map
        .ok (linear ++ linear', storage, map)) := by
      conv_lhs => unfold substituteMap
      cases hg : BMap.get map s.frm with
      | none =>
        simp only [ok_bind]
        cases hx : substituteMap (p : Int) subs storage map with
        | error e => rfl
        | ok r => rfl
      | some ids => rfl
    refine ⟨lin1 ++ lin2, s2, m2, ?_, ?_, f3, fun x i h => f4 x i (e4 x i h), ?_, ?_⟩
    · rw [key, e1, ok_bind]
      simp only [f1, ok_bind]
    · refine ⟨by rw [f2.1, e2.1], fun j c hc => ?_⟩
      obtain ⟨d, hd', hr⟩ := f2.2 j c hc
      obtain ⟨e, he, hr'⟩ := e2.2 j d hd'
      refine ⟨e, he, Changed.trans (hr'.weaken (fun ρ h => h s (by simp)) (fun x hx => ⟨s, by simp, hx⟩))
        (hr.weaken (fun ρ h t ht => h t (by simp [ht])) (fun x ⟨t, ht, hx⟩ => ⟨t, by simp [ht], hx⟩))⟩
    · intro i hi
      rcases List.mem_append.1 hi with hi | hi
      · obtain ⟨c, hc, hl⟩ := e5 i hi
        have hlt : i < s2.length := by rw [f2.1]; exact (List.getElem?_eq_some_iff.1 hc).1
        obtain ⟨d, hd', hr⟩ := f2.2 i _ (List.getElem?_eq_getElem hlt)
        rw [hc] at hd'
        injection hd' with hd'
        subst hd'
        exact ⟨_, List.getElem?_eq_getElem hlt, hr.linear hl⟩
      · exact f5 i hi
    · intro t ht
      rcases List.mem_cons.1 ht with rfl | ht
      · exact hlast
      · exact f6 t ht

theorem empty_isLinear : (Constraint.empty : C).isLinear = true := rfl

theorem empty_occurs (x : Nat) : ¬ (Constraint.empty : C).Occurs x := by
  unfold Constraint.Occurs Constraint.empty CMap.keys; simp

theorem extractLinear_spec (ids : List Nat) : ∀ (storage : List C), (∀ c ∈ storage, Clean p c) →
    (∀ i ∈ ids, ∃ c, storage[i]? = some c ∧ c.isLinear = true) →
    ∃ lin storage', extractLinear ids storage = .ok (lin, storage') ∧
      (∀ c ∈ lin, LinClean p c ∧ (c ∈ storage ∨ c = Constraint.empty)) ∧
      storage'.length = storage.length ∧
      (∀ (j : Nat) (c : C), storage'[j]? = some c → storage[j]? = some c ∨ c = Constraint.empty) ∧
      (∀ c ∈ storage, c ∈ storage' ∨ c ∈ lin) := by
  induction ids with
  | nil =>
    intro storage _ _
    exact ⟨[], storage, rfl, by simp, rfl, fun j c h => Or.inl h, fun c hc => Or.inl hc⟩
  | cons id ids ih =>
    intro storage hcl hlin
    obtain ⟨c, hc, hl⟩ := hlin id (by simp)
    have hid := (List.getElem?_eq_some_iff.1 hc).1
    obtain ⟨lin, s', g1, g2, g3, g4, g5⟩ := ih (storage.set id Constraint.empty) (by
        intro d hd
        rcases List.mem_or_eq_of_mem_set hd with h | h
        · exact hcl d h
        · rw [h]; exact clean_empty) (by
        intro i hi
        obtain ⟨d, hd, hdl⟩ := hlin i (by simp [hi])
        rw [List.getElem?_set]
        by_cases hii : id = i
        · rw [if_pos hii, if_pos hid]; exact ⟨_, rfl, empty_isLinear⟩
        · rw [if_neg hii]; exact ⟨d, hd, hdl⟩)
    refine ⟨c :: lin, s', ?_, ?_, ?_, ?_, ?_⟩
    · unfold extractLinear
      simp only [hc, g1, ok_bind]
    · intro d hd
      rcases List.mem_cons.1 hd with rfl | hd
      · exact ⟨Clean.linClean (hcl d (List.mem_of_getElem? hc)) hl, Or.inl (List.mem_of_getElem? hc)⟩
      · obtain ⟨h1, h2⟩ := g2 d hd
        refine ⟨h1, ?_⟩
        rcases h2 with h2 | h2
        · rcases List.mem_or_eq_of_mem_set h2 with h | h
          · exact Or.inl h
          · exact Or.inr h
        · exact Or.inr h2
    · rw [g3, List.length_set]
    · intro j d hd
      rcases g4 j d hd with h | h
      · rw [List.getElem?_set] at h
        by_cases hj : id = j
        · rw [if_pos hj, if_pos hid] at h
          injection h with h
          exact Or.inr h.symm
        · rw [if_neg hj] at h; exact Or.inl h
      · exact Or.inr h
    · intro d hd
      by_cases hdc : d = c
      · exact Or.inr (by simp [hdc])
      · have : d ∈ storage.set id Constraint.empty := by
          obtain ⟨j, hj, hd'⟩ := List.getElem_of_mem hd
          have hji : id ≠ j := by
            rintro rfl
            rw [List.getElem?_eq_getElem hid] at hc
            injection hc with hc
            exact hdc (hd'.symm.trans hc)
          apply List.mem_of_getElem? (i := j)
          rw [List.getElem?_set, if_neg hji, List.getElem?_eq_getElem hj, hd']
        rcases g5 d this with h | h
        · exact Or.inl h
        · exact Or.inr (by simp [h])

theorem applyToMap_spec (hp : 0 < p) (subs : List S) (storage : List C) (map : SigMap) (h0 : ∀ s ∈ subs, s.frm ≠ 0)
    (hd : ∀ s ∈ subs, ∀ t ∈ subs, s.frm ∉ t.rhs.keys) (hcl : ∀ c ∈ storage, Clean p c) (hm : MapOK map storage) :
    ∃ lin storage' map', applyToMap p subs storage map = .ok (lin, storage', map') ∧
      (∀ c ∈ lin, LinClean p c) ∧ (∀ c ∈ storage', Clean p c) ∧ MapOK map' storage' ∧ (∀ x i, Has map x i → Has map' x i) ∧
      (∀ ρ : Nat → ZMod p, ρ 0 = 1 → (∀ s ∈ subs, s.Holds ρ) → ((∀ c ∈ lin ++ storage', c.Holds ρ) ↔ ∀ c ∈ storage, c.Holds ρ)) ∧
      (∀ c ∈ lin ++ storage', ∀ x, c.Occurs x → x ≠ 0 → ((∃ d ∈ storage, d.Occurs x) ∨ ∃ s ∈ subs, x ∈ s.rhs.keys) ∧
        ∀ s ∈ subs, x ≠ s.frm) := by
  obtain ⟨ids, s1, m1, f1, f2, f3, f4, f5, f6⟩ := substituteMap_spec hp subs storage map h0 hd hcl hm
  have hcl1 : ∀ c ∈ s1, Clean p c := by
    intro c hc
    obtain ⟨j, hj, rfl⟩ := List.getElem_of_mem hc
    obtain ⟨d, _, hr⟩ := f2.2 j _ (List.getElem?_eq_getElem hj)
    exact hr.clean
  obtain ⟨lin, s2, g1, g2, g3, g4, g5⟩ := extractLinear_spec (p := p) ids s1 hcl1 f5
  have hs2 : ∀ c ∈ s2, c ∈ s1 ∨ c = Constraint.empty := by
    intro c hc
    obtain ⟨j, hj, rfl⟩ := List.getElem_of_mem hc
    rcases g4 j _ (List.getElem?_eq_getElem hj) with h | h
    · exact Or.inl (List.mem_of_getElem? h)
    · exact Or.inr h
  have hall : ∀ c ∈ lin ++ s2, c ∈ s1 ∨ c = Constraint.empty := by
    intro c hc
    rcases List.mem_append.1 hc with hc | hc
    · exact (g2 c hc).2
    · exact hs2 c hc
  refine ⟨lin, s2, m1, ?_, fun c hc => (g2 c hc).1, ?_, ⟨f3.sorted, ?_, ?_⟩, f4, ?_, ?_⟩
  · unfold applyToMap
    simp only [f1, ok_bind, g1]
  · intro c hc
    rcases hs2 c hc with h | h
    · exact hcl1 c h
    · rw [h]; exact clean_empty
  · intro j c hc x hx ho
    rcases g4 j c hc with h | h
    · exact f3.complete j c h x hx ho
    · rw [h] at ho; exact absurd ho (empty_occurs x)
  · intro x j hh
    rw [g3]; exact f3.ids x j hh
  · intro ρ hρ hs
    have e1 : (∀ c ∈ lin ++ s2, c.Holds ρ) ↔ ∀ c ∈ s1, c.Holds ρ := by
      constructor
      · intro h c hc
        rcases g5 c hc with h' | h'
        · exact h c (by simp [h'])
        · exact h c (by simp [h'])
      · intro h c hc
        rcases hall c hc with h' | h'
        · exact h c h'
        · rw [h']; exact empty_holds _ rfl ρ
    rw [e1]
    exact forall₂_holds f2.forall₂ fun c c' hch => hch.equiv ρ hρ hs
  · intro c hc x hx hx0
    rcases hall c hc with h | h
    · refine ⟨?_, fun s hs hxs => f6 s hs c h (hxs ▸ hx)⟩
      obtain ⟨j, hj, rfl⟩ := List.getElem_of_mem h
      obtain ⟨d, hd', hr⟩ := f2.2 j _ (List.getElem?_eq_getElem hj)
      rcases hr.occurs x hx with h | h | h
      · exact absurd h hx0
      · exact Or.inl ⟨d, List.mem_of_getElem? hd', h⟩
      · exact Or.inr h
    · rw [h] at hx; exact absurd hx (empty_occurs x)

/-! ### The remaining linear constraints -/

theorem foldSub (hp : 0 < p) (subs : List S) : ∀ (c : C), (∀ s ∈ subs, s.frm ≠ 0) →
    (∀ s ∈ subs, ∀ t ∈ subs, s.frm ∉ t.rhs.keys) → Good p c →
    Good p (subs.foldl (fun c s => c.applySubstitution s p) c) ∧
    (∀ ρ : Nat → ZMod p, (∀ s ∈ subs, s.Holds ρ) → ((subs.foldl (fun c s => c.applySubstitution s p) c).Holds ρ ↔ c.Holds ρ)) ∧
    (∀ x, (subs.foldl (fun c s => c.applySubstitution s p) c).Occurs x → x ≠ 0 →
      (c.Occurs x ∨ ∃ s ∈ subs, x ∈ s.rhs.keys) ∧ ∀ s ∈ subs, x ≠ s.frm) := by
  induction subs with
  | nil => intro c _ _ hg; exact ⟨hg, fun _ _ => Iff.rfl, fun x hx _ => ⟨Or.inl hx, by simp⟩⟩
  | cons s subs ih =>
    intro c h0 hd hg
    have h0s := h0 s (by simp)
    obtain ⟨i1, i2, i3⟩ := ih (c.applySubstitution s p) (fun t ht => h0 t (by simp [ht]))
      (fun t ht u hu => hd t (by simp [ht]) u (by simp [hu])) (good_applySubstitution hp hg s)
    obtain ⟨r1, r2⟩ := C14_removed c s (p : Int) h0s (hd s (by simp) s (by simp))
    refine ⟨i1, fun ρ hρ => ?_, fun x hx hx0 => ?_⟩
    · rw [List.foldl_cons, i2 ρ (fun t ht => hρ t (by simp [ht]))]
      exact (C14_constraint hp c hg.wa hg.wb hg.wc s h0s ρ).2 (hρ s (by simp))
    · rw [List.foldl_cons] at hx
      obtain ⟨h1, h2⟩ := i3 x hx hx0
      have hne : x ≠ s.frm := by
        rintro rfl
        rcases h1 with h1 | ⟨t, ht, h1⟩
        · exact r1 h1
        · exact hd s (by simp) t (by simp [ht]) h1
      refine ⟨?_, ?_⟩
      · rcases h1 with h1 | ⟨t, ht, h1⟩
        · rcases r2 x h1 with h | h | h
          · exact absurd h hx0
          · exact Or.inl h
          · exact Or.inr ⟨s, by simp, h⟩
        · exact Or.inr ⟨t, by simp [ht], h1⟩
      · intro t ht
        rcases List.mem_cons.1 ht with rfl | ht
        · exact hne
        · exact h2 t ht

theorem substituteConst_spec (hp : 0 < p) (subs : List S) (c : C) (h0 : ∀ s ∈ subs, s.frm ≠ 0)
    (hd : ∀ s ∈ subs, ∀ t ∈ subs, s.frm ∉ t.rhs.keys) (hg : Good p c) :
    ∃ c', substituteConst p subs c = .ok c' ∧ Clean p c' ∧
      (∀ ρ : Nat → ZMod p, ρ 0 = 1 → (∀ s ∈ subs, s.Holds ρ) → (c'.Holds ρ ↔ c.Holds ρ)) ∧
      (∀ x, c'.Occurs x → x ≠ 0 → (c.Occurs x ∨ ∃ s ∈ subs, x ∈ s.rhs.keys) ∧ ∀ s ∈ subs, x ≠ s.frm) := by
  obtain ⟨f1, f2, f3⟩ := foldSub hp subs c h0 hd hg
  obtain ⟨c', k1, k2, k3, k4, _⟩ := C15_fix hp _ f1.wa f1.wb f1.wc f1.ca f1.cb f1.cc
  refine ⟨c', k1, k2, fun ρ hρ hs => (k3 ρ hρ).trans (f2 ρ hs), fun x hx hx0 => ?_⟩
  rcases k4 x hx with h | h
  · exact absurd h hx0
  · exact f3 x h hx0

/-! ### The rounds -/

/-- Invariant of the round loop. -/
structure RInv (p : Nat) (Orig : (Nat → ZMod p) → Prop) (sat : Prop) (forb : List Nat) (bound : Nat) (st : RoundState)
    (subs : List S) : Prop where
  inv : Inv p Orig sat forb bound (st.lconst ++ (st.linear ++ st.storage)) subs
  deleted : ∀ x, x ∈ st.deleted ↔ ∃ s ∈ subs, s.frm = x
  lconst : ∀ c ∈ st.lconst, Good p c
  linear : ∀ c ∈ st.linear, LinClean p c
  storage : ∀ c ∈ st.storage, Clean p c
  map : MapOK st.map st.storage

theorem rounds_spec (hp : p.Prime) (sched : Sched) (hs : sched.Valid) (fuel : List C → Nat)
    (hfuel : ∀ cs, enough cs ≤ fuel cs) (forb : List Nat) (h0 : 0 ∈ forb) (bound : Nat) (old : Bool)
    (Orig : (Nat → ZMod p) → Prop) (sat : Prop) (n : Nat) : ∀ (ph : Nat) (st : RoundState) (subs : List S),
    RInv p Orig sat forb bound st subs →
    ∃ st' subs', rounds sched fuel forb bound p old n ph st = .ok st' ∧ RInv p Orig sat forb bound st' subs' := by
  induction n with
  | zero => intro ph st subs h; exact ⟨st, subs, rfl, h⟩
  | succ n ih =>
    intro ph st subs h
    unfold rounds
    split
    · exact ⟨st, subs, rfl, h⟩
    · obtain ⟨sR, cons, g1, g2, g3⟩ := linearSimplification_spec hp sched hs ph fuel hfuel st.linear forb h0 bound old h.linear
        (fun c hc => h.inv.bounded c (by simp [hc]))
      have hz : ∀ s ∈ sR, s.frm ≠ 0 := fun s hs => (g2.froms s hs).1
      obtain ⟨lconst', k1, k2⟩ := mapM_spec (substituteConst (p : Int) sR)
        (fun c c' => Clean p c' ∧ (∀ ρ : Nat → ZMod p, ρ 0 = 1 → (∀ s ∈ sR, s.Holds ρ) → (c'.Holds ρ ↔ c.Holds ρ)) ∧
          (∀ x, c'.Occurs x → x ≠ 0 → (c.Occurs x ∨ ∃ s ∈ sR, x ∈ s.rhs.keys) ∧ ∀ s ∈ sR, x ≠ s.frm))
        (st.lconst ++ cons) (by
          intro c hc
          refine substituteConst_spec hp.pos sR c hz g2.disjoint ?_
          rcases List.mem_append.1 hc with hc | hc
          · exact h.lconst c hc
          · exact g2.good c hc)
      obtain ⟨lin, sto, map, m1, m2, m3, m4, m5, m6, m7⟩ := applyToMap_spec hp.pos sR st.storage st.map hz g2.disjoint h.storage h.map
      -- every signal of the new system was a signal of the old one
      have hold : ∀ c ∈ lconst' ++ (lin ++ sto), ∀ x, c.Occurs x → x ≠ 0 →
          (∃ d ∈ st.lconst ++ (st.linear ++ st.storage), d.Occurs x) ∧ ∀ s ∈ sR, x ≠ s.frm := by
        have hlin : ∀ x, (∃ d ∈ st.linear, d.Occurs x) → ∃ d ∈ st.lconst ++ (st.linear ++ st.storage), d.Occurs x := by
          rintro x ⟨d, hd, hx⟩; exact ⟨d, by simp [hd], hx⟩
        have hrhs : ∀ x, x ≠ 0 → (∃ s ∈ sR, x ∈ s.rhs.keys) → ∃ d ∈ st.lconst ++ (st.linear ++ st.storage), d.Occurs x := by
          rintro x hx0 ⟨s, hs, hx⟩
          rcases g2.rhs s hs x hx with h | h
          · exact absurd h hx0
          · exact hlin x h
        intro c hc x hx hx0
        rcases List.mem_append.1 hc with hc | hc
        · obtain ⟨d, hd, _, _, h3⟩ := forall₂_exists_left k2 c hc
          obtain ⟨h4, h5⟩ := h3 x hx hx0
          refine ⟨?_, h5⟩
          rcases h4 with h4 | h4
          · rcases List.mem_append.1 hd with hd | hd
            · exact ⟨d, by simp [hd], h4⟩
            · rcases g2.prot d hd x h4 with h | ⟨_, h⟩
              · exact absurd h hx0
              · exact hlin x h
          · exact hrhs x hx0 h4
        · obtain ⟨h4, h5⟩ := m7 c hc x hx hx0
          refine ⟨?_, h5⟩
          rcases h4 with ⟨d, hd, h4⟩ | h4
          · exact ⟨d, by simp [hd], h4⟩
          · exact hrhs x hx0 h4
      have hsR : ∀ s ∈ sR, ∃ d ∈ st.lconst ++ (st.linear ++ st.storage), d.Occurs s.frm := by
        intro s hs
        obtain ⟨_, _, c, hc, hx⟩ := g2.froms s hs
        exact ⟨c, by simp [hc], hx⟩
      have hlc : ∀ ρ : Nat → ZMod p, ρ 0 = 1 → (∀ s ∈ sR, s.Holds ρ) →
          ((∀ c ∈ lconst', c.Holds ρ) ↔ ∀ c ∈ st.lconst ++ cons, c.Holds ρ) := by
        intro ρ hρ hh
        exact forall₂_holds k2 fun c c' hr => hr.2.1 ρ hρ hh
      obtain ⟨st', subs', r1, r2⟩ := ih (ph + 1) ⟨lin, lconst', sto, map, st.deleted ++ sR.map fun s => s.frm⟩ (subs ++ sR) (by
        refine ⟨⟨?_, ?_, ?_, ?_, ?_, ?_, ?_⟩, ?_, ?_, m2, m3, m4⟩
        · intro ρ hρ ho
          obtain ⟨h1, h2⟩ := h.inv.fwd ρ hρ ho
          simp only [List.forall_mem_append] at h1
          obtain ⟨l1, l2, l3⟩ := h1
          obtain ⟨q1, q2⟩ := (g2.equiv ρ hρ).1 l2
          refine ⟨List.forall_mem_append.2 ⟨(hlc ρ hρ q1).2 (List.forall_mem_append.2 ⟨l1, q2⟩), (m6 ρ hρ q1).2 l3⟩,
            List.forall_mem_append.2 ⟨h2, q1⟩⟩
        · intro hsat ρ hρ hl hsub
          rw [List.forall_mem_append] at hl hsub
          obtain ⟨l1, l2⟩ := hl
          obtain ⟨q1, q2⟩ := hsub
          have hc := (hlc ρ hρ q2).1 l1
          rw [List.forall_mem_append] at hc
          refine h.inv.bwd hsat ρ hρ ?_ q1
          simp only [List.forall_mem_append]
          exact ⟨hc.1, (g2.equiv ρ hρ).2 ⟨q2, hc.2⟩, (m6 ρ hρ q2).1 l2⟩
        · rw [List.pairwise_append]
          refine ⟨h.inv.tri, pairwise_of_solved g2, fun s hs t ht => ⟨fun hx => ?_, fun hx => ?_⟩⟩
          · rcases g2.rhs t ht _ hx with h' | ⟨d, hd, h'⟩
            · exact (h.inv.froms s hs).1 h'
            · exact h.inv.gone s hs d (by simp [hd]) h'
          · obtain ⟨d, hd, h'⟩ := hsR t ht
            exact h.inv.gone s hs d hd (hx ▸ h')
        · intro s hs
          rcases List.mem_append.1 hs with hs | hs
          · exact h.inv.self s hs
          · exact g2.disjoint s hs s hs
        · intro s hs
          rcases List.mem_append.1 hs with hs | hs
          · exact h.inv.froms s hs
          · obtain ⟨q1, q2, _⟩ := g2.froms s hs
            obtain ⟨d, hd, h'⟩ := hsR s hs
            exact ⟨q1, q2, h.inv.bounded d hd _ h' q1⟩
        · intro s hs c hc hx
          rcases List.mem_append.1 hs with hs | hs
          · obtain ⟨⟨d, hd, h'⟩, _⟩ := hold c hc _ hx (h.inv.froms s hs).1
            exact h.inv.gone s hs d hd h'
          · exact (hold c hc _ hx (hz s hs)).2 s hs rfl
        · intro c hc x hx hx0
          obtain ⟨⟨d, hd, h'⟩, _⟩ := hold c hc x hx hx0
          exact h.inv.bounded d hd x h' hx0
        · intro x
          show x ∈ st.deleted ++ sR.map (fun s => s.frm) ↔ _
          simp only [List.mem_append, List.mem_map, h.deleted]
          constructor
          · rintro (⟨s, hs, h⟩ | ⟨s, hs, h⟩)
            · exact ⟨s, Or.inl hs, h⟩
            · exact ⟨s, Or.inr hs, h⟩
          · rintro ⟨s, hs | hs, h⟩
            · exact Or.inl ⟨s, hs, h⟩
            · exact Or.inr ⟨s, hs, h⟩
        · intro c hc
          obtain ⟨d, _, h1, _⟩ := forall₂_exists_left k2 c hc
          exact h1.good)
      refine ⟨st', subs', ?_, r2⟩
      simp only [g1, ok_bind, k1, m1]
      exact r1

/-- The state after all rounds. -/
theorem simplified_spec (hp : p.Prime) (sched : Sched) (hs : sched.Valid) (fuel : List C → Nat)
    (hfuel : ∀ cs, enough cs ≤ fuel cs) (smp : Input) (hi : InputOK p smp) :
    ∃ st subs, simplified sched fuel smp = .ok st ∧
      RInv p (smp.Holds) (smp.ConstsConsistent p) smp.forbidden smp.maxSignal st subs := by
  obtain ⟨st, subs, h1, h2, h3, h4, h5, h6⟩ := start_spec hp sched hs fuel hfuel smp hi
  have hm : MapOK (buildMap st.storage 0 []) st.storage := by
    have := buildMap_spec st.storage [] [] mapOK_nil
    simpa using this
  unfold simplified
  rw [h1, ok_bind]
  have hr : RInv p (smp.Holds) (smp.ConstsConsistent p) smp.forbidden smp.maxSignal
      ⟨st.linear, st.lconst, st.storage, buildMap st.storage 0 [], st.deleted⟩ subs := ⟨h2, h3, h4, h5, h6, hm⟩
  split
  · exact ⟨_, subs, rfl, hr⟩
  · rw [hi.field]
    exact rounds_spec hp sched hs fuel hfuel smp.forbidden hi.zero smp.maxSignal smp.oldHeuristics _ _ _ 4 _ subs hr

end Verif.Simplification
