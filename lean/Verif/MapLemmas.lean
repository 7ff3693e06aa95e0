import Verif.NameLemmas
import Verif.Props.Algebra2
import Verif.Props.Simplification

/-! # Lemmas about the constraints handed to the simplifier -/

set_option linter.unusedSectionVars false
set_option linter.unusedSimpArgs false

namespace Verif.Dag
open Verif.ModArith (Res Fail)
open Verif.Algebra
open Verif.Props.Algebra (ok_bind GoodRenaming C17_correspondence C17_offset)
open Verif.Props.Simplification (Tidy Valid original wires)

variable {p : Nat}

/-- The names a template's constraints may use: its own signals and the signals of its direct subcomponents. -/
def Known (ts : List Template) (t : Template) (s : Name) : Prop :=
  s ∈ locNames t ∨ ∃ c ∈ t.connexions, ∃ x ∈ namesAt ts c.2, s = c.1 ++ '.' :: x

/-- The terms of a constraint. -/
def terms (c : Constraint Name) : CMap Name := c.a ++ c.b ++ c.c

/-- Spec: constraints over known names, distinct names per linear combination, coefficients in `0..p-1`. -/
structure GoodConstraint (p : Nat) (ts : List Template) (t : Template) (c : Constraint Name) : Prop where
  nodup : (c.a.map Prod.fst).Nodup ∧ (c.b.map Prod.fst).Nodup ∧ (c.c.map Prod.fst).Nodup
  known : ∀ e ∈ terms c, e.1 = [] ∨ Known ts t e.1
  range : ∀ e ∈ terms c, 0 ≤ e.2 ∧ e.2 < p

/-- Spec: a program handed to the graph. -/
structure Program (p : Nat) (ts : List Template) : Prop where
  named : WellNamed ts
  nonempty : ts ≠ []
  constraints : ∀ t ∈ ts, ∀ c ∈ t.constraints, GoodConstraint p ts t c
  ordered : ∀ t ∈ ts, ∀ s ∈ t.ordered, s ∈ locNames t

/-- The number of a name in a template, 0 for the constant. -/
def number (ts : List Template) (t : Template) (s : Name) : Nat := if s = [] then 0 else (NMap.get (table ts t) s).getD 0

/-- The number of a name of a template in an instance starting after signal `o`. -/
def global (ts : List Template) (t : Template) (o : Nat) (s : Name) : Nat :=
  if s = [] then 0 else (NMap.get (table ts t) s).getD 0 + o

theorem known_iff (ts : List Template) (t : Template) (s : Name) : s ∈ (table ts t).map Prod.fst ↔ Known ts t s := by
  rw [table_keys, List.mem_append, List.mem_flatMap]
  unfold Known
  refine or_congr Iff.rfl ⟨?_, ?_⟩
  · rintro ⟨k, hk, hs⟩
    obtain ⟨x, hx, rfl⟩ := List.mem_map.1 hs
    exact ⟨_, layout_target hk, x, hx, rfl⟩
  · rintro ⟨c, hc, x, hx, rfl⟩
    have : (c.1, c.2) ∈ (kids ts t).map fun k => (k.1, k.2.1) := by
      unfold kids
      have : ∀ (o : Nat) (cs : List (Name × Nat)), (layout (size ts) o cs).map (fun k => (k.1, k.2.1)) = cs := by
        intro o cs
        induction cs generalizing o with
        | nil => rfl
        | cons c cs ih => simp [layout, ih]
      rw [this]
      exact hc
    obtain ⟨k, hk, he⟩ := List.mem_map.1 this
    simp only [Prod.mk.injEq] at he
    exact ⟨k, hk, List.mem_map.2 ⟨x, by rw [he.2]; exact hx, by rw [he.1]⟩⟩

theorem table_inj {ts : List Template} (h : WellNamed ts) {i : Nat} {t : Template} (ht : ts[i]? = some t) {x y : Name} {z : Nat}
    (hx : NMap.get (table ts t) x = some z) (hy : NMap.get (table ts t) y = some z) : x = y := by
  have hf := table_fresh h t (List.mem_of_getElem? ht)
  rw [NMap.get_eq_some hf] at hx hy
  have := List.inj_on_of_nodup_map (table_values h.order ht).2 hx hy rfl
  exact congrArg Prod.fst this

theorem table_range {ts : List Template} (h : WellNamed ts) {i : Nat} {t : Template} (ht : ts[i]? = some t) {x : Name} {z : Nat}
    (hx : NMap.get (table ts t) x = some z) : 0 < z ∧ z ≤ size ts i := by
  have hf := table_fresh h t (List.mem_of_getElem? ht)
  rw [NMap.get_eq_some hf] at hx
  exact (table_values h.order ht).1 z (List.mem_map_of_mem (f := Prod.snd) hx)

theorem occurs_iff (c : Constraint Name) (s : Name) : c.Occurs s ↔ ∃ e ∈ terms c, e.1 = s := by
  unfold Constraint.Occurs terms CMap.keys
  simp only [List.mem_map, List.mem_append]
  constructor
  · rintro (⟨e, h, rfl⟩ | ⟨e, h, rfl⟩ | ⟨e, h, rfl⟩)
    · exact ⟨e, Or.inl (Or.inl h), rfl⟩
    · exact ⟨e, Or.inl (Or.inr h), rfl⟩
    · exact ⟨e, Or.inr h, rfl⟩
  · rintro ⟨e, (h | h) | h, rfl⟩
    · exact Or.inl ⟨e, h, rfl⟩
    · exact Or.inr (Or.inl ⟨e, h, rfl⟩)
    · exact Or.inr (Or.inr ⟨e, h, rfl⟩)

/-- What numbering does to one constraint. -/
structure Numbered (p : Nat) (ts : List Template) (i : Nat) (t : Template) (c : Constraint Name) (c' : C) : Prop where
  good : GoodConstraint p ts t c
  wf : c'.a.WF ∧ c'.b.WF ∧ c'.c.WF
  canon : CanonMap p c'.a ∧ CanonMap p c'.b ∧ CanonMap p c'.c
  holds : ∀ ρ : Nat → ZMod p, c'.Holds ρ ↔ c.Holds fun s => ρ (number ts t s)
  range : ∀ x, c'.Occurs x → x ≤ size ts i

theorem numbered_one {ts : List Template} (h : WellNamed ts) {i : Nat} {t : Template} (ht : ts[i]? = some t) {c : Constraint Name}
    (hc : GoodConstraint p ts t c) :
    ∃ c', c.applyCorrespondence (fun s => NMap.get (table ts t) s) = .ok c' ∧ Numbered p ts i t c c' := by
  have hdef : ∀ x, c.Occurs x → x ≠ default → ∃ y, NMap.get (table ts t) x = some y ∧ y ≠ default := by
    intro x hx hxd
    obtain ⟨e, he, rfl⟩ := (occurs_iff c x).1 hx
    rcases hc.known e he with h0 | hk
    · exact absurd h0 hxd
    · obtain ⟨y, hy⟩ := Option.isSome_iff_exists.1 ((NMap.get_isSome _ _).2 ((known_iff ts t e.1).2 hk))
      exact ⟨y, hy, by have := (table_range h ht hy).1; simp only [Nat.default_eq_zero]; omega⟩
  obtain ⟨c', h1, wa, wb, wc, h2, h3, h4, h5⟩ := C17_correspondence (p := p) c hc.nodup.1 hc.nodup.2.1 hc.nodup.2.2
    (fun s => NMap.get (table ts t) s) ⟨hdef, fun x y z _ _ hx hy => table_inj h ht hx hy⟩
  refine ⟨c', h1, hc, ⟨wa, wb, wc⟩, ?_, ?_, ?_⟩
  · have key : ∀ (f : Constraint Name → CMap Name) (f' : C → CMap Nat), (f' c').WF → (∀ e ∈ f c, e ∈ terms c) →
        (∀ x, x ∈ (f' c').keys → c'.Occurs x) →
        (∀ x y, x ≠ default → NMap.get (table ts t) x = some y → c.Occurs x → (f' c').get y = (f c).get x) →
        (f' c').get default = (f c).get default → CanonMap p (f' c') := by
      intro f f' hw hsub hocc hg hd e he
      have hge := CMap.get_of_mem hw he
      rcases h5 e.1 (hocc e.1 (List.mem_map_of_mem (f := Prod.fst) he)) with h0 | ⟨x, hx, hxd, hxe⟩
      · rw [h0, hd] at hge
        exact hc.range _ (hsub _ (CMap.get_mem hge))
      · rw [hg x e.1 hxd hxe hx] at hge
        exact hc.range _ (hsub _ (CMap.get_mem hge))
    refine ⟨key Constraint.a Constraint.a wa (fun e he => ?_) (fun x hx => Or.inl hx) (fun x y g1 g2 g3 => (h2 x y g1 g2 g3).1) h3.1,
      key Constraint.b Constraint.b wb (fun e he => ?_) (fun x hx => Or.inr (Or.inl hx)) (fun x y g1 g2 g3 => (h2 x y g1 g2 g3).2.1) h3.2.1,
      key Constraint.c Constraint.c wc (fun e he => ?_) (fun x hx => Or.inr (Or.inr hx)) (fun x y g1 g2 g3 => (h2 x y g1 g2 g3).2.2) h3.2.2⟩ <;>
      simp [terms, he]
  · intro ρ
    refine h4 _ ρ (by simp [number, default]) fun x y hx hxd hxy => ?_
    have hx0 : x ≠ [] := hxd
    simp only [number, if_neg hx0]
    rw [hxy]
    rfl
  · intro x hx
    rcases h5 x hx with h0 | ⟨s, _, _, hs⟩
    · rw [h0]; exact Nat.zero_le _
    · exact (table_range h ht hs).2

theorem numbered_all {ts : List Template} (h : WellNamed ts) {i : Nat} {t : Template} (ht : ts[i]? = some t)
    (hc : ∀ c ∈ t.constraints, GoodConstraint p ts t c) :
    ∃ rs, numbered ts t = .ok rs ∧ List.Forall₂ (Numbered p ts i t) t.constraints rs := by
  unfold numbered
  generalize t.constraints = l at hc
  induction l with
  | nil => exact ⟨[], rfl, .nil⟩
  | cons c l ih =>
    obtain ⟨c', g1, g2⟩ := numbered_one h ht (hc c (by simp))
    obtain ⟨rs, g3, g4⟩ := ih fun c' hc' => hc c' (by simp [hc'])
    exact ⟨c' :: rs, by rw [List.mapM_cons, g1, ok_bind, g3, ok_bind]; rfl, .cons g2 g4⟩

theorem Program.resolves {ts : List Template} (h : Program p ts) : Resolves ts := by
  refine ⟨h.named.order, table_fresh h.named, fun t ht => ?_⟩
  obtain ⟨i, hi⟩ := List.mem_iff_getElem?.1 ht
  obtain ⟨rs, h1, _⟩ := numbered_all h.named hi (h.constraints t ht)
  exact ⟨rs, h1⟩

theorem Program.orderedKnown {ts : List Template} (h : Program p ts) : OrderedKnown ts := fun t ht s hs =>
  (known_iff ts t s).2 (Or.inl (h.ordered t ht s hs))

/-! ## Instances -/

theorem layout_range {sz : Nat → Nat} {o : Nat} {cs : List (Name × Nat)} {k : Name × Nat × Nat} (h : k ∈ layout sz o cs) :
    k.2.2 + sz k.2.1 ≤ o + (cs.map fun c => sz c.2).sum := by
  induction cs generalizing o with
  | nil => simp [layout] at h
  | cons c cs ih =>
    simp only [layout, List.mem_cons] at h
    simp only [List.map_cons, List.sum_cons]
    rcases h with rfl | h
    · simp only; omega
    · have := ih h; omega

theorem instances_range {ts : List Template} (ho : Ordered ts) (fuel : Nat) : ∀ (i o : Nat) (path : Name), i < ts.length →
    ∀ y ∈ instances ts fuel i o path, o ≤ y.2.1 ∧ y.2.1 + size ts y.1 ≤ o + size ts i := by
  induction fuel with
  | zero => intro i o path _ y hy; simp [instances] at hy
  | succ fuel ih =>
    intro i o path hi y hy
    have ht : ts[i]? = some ts[i] := List.getElem?_eq_getElem hi
    unfold instances at hy
    rcases List.mem_cons.1 hy with rfl | hy
    · simp
    · rw [List.mem_flatMap] at hy
      obtain ⟨k, hk, hy⟩ := hy
      rw [kidsAt_eq ht] at hk
      have h1 := ho i _ ht _ (layout_target hk)
      have h2 := layout_range hk
      have h3 := ih k.2.1 _ _ (by simp only at h1; omega) y hy
      rw [size_eq ho ht]
      omega

theorem allInstances_range {ts : List Template} (ho : Ordered ts) (hne : ts ≠ []) : ∀ y ∈ allInstances ts,
    y.2.1 + size ts y.1 ≤ size ts (ts.length - 1) := by
  intro y hy
  have := instances_range ho ts.length (ts.length - 1) 0 _ (by have := List.length_pos_iff.2 hne; omega) y hy
  omega

/-! ## Constraints of the instances -/

theorem consAt_eq {ts : List Template} {d : Graph} (hb : Built ts d) {i : Nat} {t : Template} (ht : ts[i]? = some t) :
    ∃ cs, numbered ts t = .ok cs ∧ consAt d i = cleaned cs := by
  obtain ⟨n, es, cs, g1, g2, g3, g4⟩ := hb.ok i t ht
  exact ⟨cs, g3, by simp [consAt, g1, g4.constraints]⟩

theorem forall₂_mem {α β : Type} {R : α → β → Prop} {l : List α} {l' : List β} (h : List.Forall₂ R l l') {b : β} (hb : b ∈ l') :
    ∃ a ∈ l, R a b := by
  induction h with
  | nil => simp at hb
  | cons h hs ih =>
    rcases List.mem_cons.1 hb with rfl | hb
    · exact ⟨_, by simp, h⟩
    · obtain ⟨a, ha, hr⟩ := ih hb
      exact ⟨a, by simp [ha], hr⟩

theorem forall₂_mem_left {α β : Type} {R : α → β → Prop} {l : List α} {l' : List β} (h : List.Forall₂ R l l') {a : α} (ha : a ∈ l) :
    ∃ b ∈ l', R a b := by
  induction h with
  | nil => simp at ha
  | cons h hs ih =>
    rcases List.mem_cons.1 ha with rfl | ha
    · exact ⟨_, by simp, h⟩
    · obtain ⟨b, hb, hr⟩ := ih ha
      exact ⟨b, by simp [hb], hr⟩

theorem holds_removeZeros (c : C) (ρ : Nat → ZMod p) : c.removeZeros.Holds ρ ↔ c.Holds ρ := by
  unfold Constraint.removeZeros Constraint.Holds
  simp only [ev_removeZeros]

theorem holds_isEmpty {c : C} (h : c.isEmpty = true) (ρ : Nat → ZMod p) : c.Holds ρ := by
  unfold Constraint.isEmpty at h
  simp only [Bool.and_eq_true, List.isEmpty_iff] at h
  unfold Constraint.Holds
  rw [h.1.1, h.1.2, h.2]
  simp [ev]

/-- The constraints of an instance hold exactly when the constraints of its template hold for its signals. -/
theorem shifted_holds {ts : List Template} (h : Program p ts) {d : Graph} (hb : Built ts d) {y : Nat × Nat × Name} {t : Template}
    (ht : ts[y.1]? = some t) (ρ : Nat → ZMod p) :
    (∀ c ∈ shifted d y, c.Holds ρ) ↔ ∀ c ∈ t.constraints, c.Holds fun s => ρ (global ts t y.2.1 s) := by
  obtain ⟨cs, h1, h2⟩ := consAt_eq hb ht
  obtain ⟨rs, h3, h4⟩ := numbered_all h.named ht (h.constraints t (List.mem_of_getElem? ht))
  rw [h1] at h3; injection h3 with h3; subst h3
  have hnum : ∀ (c : Constraint Name) (c' : C), Numbered p ts y.1 t c c' →
      ((c'.removeZeros.applyOffset y.2.1).Holds ρ ↔ c.Holds fun s => ρ (global ts t y.2.1 s)) := by
    intro c c' hn
    have hwf := hn.wf
    rw [(C17_offset c'.removeZeros (wf_removeZeros hwf.1) (wf_removeZeros hwf.2.1) (wf_removeZeros hwf.2.2) y.2.1).1 ρ,
      holds_removeZeros, hn.holds]
    have : ∀ s, c.Occurs s → (if number ts t s = 0 then 0 else number ts t s + y.2.1) = global ts t y.2.1 s := by
      intro s hs
      unfold number global
      by_cases hs0 : s = []
      · simp [hs0]
      · rw [if_neg hs0, if_neg hs0]
        have : ∃ z, NMap.get (table ts t) s = some z ∧ z ≠ 0 := by
          cases hz : NMap.get (table ts t) s with
          | some z => exact ⟨z, rfl, by have := (table_range h.named ht hz).1; omega⟩
          | none =>
            exfalso
            obtain ⟨e, he, rfl⟩ := (occurs_iff c s).1 hs
            rcases hn.good.known e he with h0 | hk
            · exact hs0 h0
            · have := (NMap.get_isSome _ _).2 ((known_iff ts t e.1).2 hk)
              rw [hz] at this
              cases this
        obtain ⟨z, hz, hz0⟩ := this
        rw [hz]
        simp [hz0]
    unfold Constraint.Holds
    rw [ev_congr _ _ c.a fun s hs => congrArg ρ (this s (Or.inl hs)), ev_congr _ _ c.b fun s hs => congrArg ρ (this s (Or.inr (Or.inl hs))),
      ev_congr _ _ c.c fun s hs => congrArg ρ (this s (Or.inr (Or.inr hs)))]
  unfold shifted
  rw [h2]
  unfold cleaned
  constructor
  · intro hall c hc
    obtain ⟨c', hc', hn⟩ := forall₂_mem_left h4 hc
    rw [← hnum c c' hn]
    by_cases he : c'.removeZeros.isEmpty = true
    · have : c'.removeZeros.applyOffset y.2.1 = c'.removeZeros := by
        unfold Constraint.isEmpty at he
        simp only [Bool.and_eq_true, List.isEmpty_iff] at he
        unfold Constraint.applyOffset
        cases hz : c'.removeZeros with
        | mk a b cc =>
          rw [hz] at he
          simp only at he
          rw [he.1.1, he.1.2, he.2]
          rfl
      rw [this]
      exact holds_isEmpty he ρ
    · exact hall _ (List.mem_map.2 ⟨c'.removeZeros, List.mem_filter.2 ⟨List.mem_map_of_mem hc', by simp [he]⟩, rfl⟩)
  · intro hall c hc
    obtain ⟨c1, hc1, rfl⟩ := List.mem_map.1 hc
    obtain ⟨c', hc', rfl⟩ := List.mem_map.1 (List.mem_filter.1 hc1).1
    obtain ⟨c0, hc0, hn⟩ := forall₂_mem h4 hc'
    rw [hnum c0 c' hn]
    exact hall c0 hc0

/-- Shape of the constraints of an instance. -/
theorem shifted_tidy {ts : List Template} (h : Program p ts) {d : Graph} (hb : Built ts d) {y : Nat × Nat × Name} (hy : y.1 < ts.length) :
    ∀ c ∈ shifted d y, Tidy p c ∧ ∀ x, c.Occurs x → x = 0 ∨ (y.2.1 < x ∧ x ≤ y.2.1 + size ts y.1) := by
  have ht : ts[y.1]? = some ts[y.1] := List.getElem?_eq_getElem hy
  obtain ⟨cs, h1, h2⟩ := consAt_eq hb ht
  obtain ⟨rs, h3, h4⟩ := numbered_all h.named ht (h.constraints _ (List.mem_of_getElem? ht))
  rw [h1] at h3; injection h3 with h3; subst h3
  intro c hc
  unfold shifted at hc
  rw [h2] at hc
  obtain ⟨c1, hc1, rfl⟩ := List.mem_map.1 hc
  obtain ⟨c', hc', rfl⟩ := List.mem_map.1 (List.mem_filter.1 hc1).1
  obtain ⟨c0, hc0, hn⟩ := forall₂_mem h4 hc'
  have key : ∀ m : CMap Nat, m.WF → CanonMap p m → (∀ x ∈ m.keys, x ≤ size ts y.1) →
      (((rawOffset (removeZeros m) y.2.1).map Prod.fst).Nodup ∧ ∀ e ∈ rawOffset (removeZeros m) y.2.1, 0 < e.2 ∧ e.2 < p) ∧
      ∀ x ∈ (rawOffset (removeZeros m) y.2.1).keys, x = 0 ∨ (y.2.1 < x ∧ x ≤ y.2.1 + size ts y.1) := by
    intro m hw hcan hr
    rw [rawOffset_eq _ (wf_removeZeros hw)]
    refine ⟨⟨wf_rename _ (wf_removeZeros hw) fun a _ b _ hab => offsetMap_inj _ hab, ?_⟩, ?_⟩
    · intro e he
      obtain ⟨e', he', rfl⟩ := List.mem_map.1 he
      unfold removeZeros at he'
      have h0 := List.mem_filter.1 he'
      have hce := hcan e' h0.1
      have : e'.2 ≠ 0 := by simpa using h0.2
      simp only
      omega
    · intro x hx
      rw [keys_rename] at hx
      obtain ⟨k, hk, rfl⟩ := List.mem_map.1 hx
      have : k ∈ m.keys := by
        unfold removeZeros CMap.keys at hk
        exact (List.Sublist.map _ List.filter_sublist).subset hk
      have := hr k this
      unfold offsetMap
      split
      · exact Or.inl rfl
      · right; omega
  have ka := key _ hn.wf.1 hn.canon.1 fun x hx => hn.range x (Or.inl hx)
  have kb := key _ hn.wf.2.1 hn.canon.2.1 fun x hx => hn.range x (Or.inr (Or.inl hx))
  have kc := key _ hn.wf.2.2 hn.canon.2.2 fun x hx => hn.range x (Or.inr (Or.inr hx))
  refine ⟨?_, ?_⟩
  · intro m hm
    simp only [List.mem_cons, List.not_mem_nil, or_false] at hm
    rcases hm with rfl | rfl | rfl
    · exact ka.1
    · exact kb.1
    · exact kc.1
  · rintro x (hx | hx | hx)
    · exact ka.2 x hx
    · exact kb.2 x hx
    · exact kc.2 x hx

/-! ## What `map` produces -/

theorem foldl_mapConstraint (field : Int) (cs : List C) (h : Holder) : cs.foldl (mapConstraint field) h = { h with
    constantEqualities := h.constantEqualities ++ cs.filter fun c => c.isConstantEquality
    equalities := h.equalities ++ cs.filter fun c => !c.isConstantEquality && c.isEquality field
    linear := h.linear ++ cs.filter fun c => !c.isConstantEquality && (!c.isEquality field && c.isLinear)
    noConstraints := h.noConstraints + (cs.filter fun c => !c.isConstantEquality && (!c.isEquality field && !c.isLinear)).length } := by
  induction cs generalizing h with
  | nil => simp
  | cons c cs ih =>
    rw [List.foldl_cons, ih]
    unfold mapConstraint
    by_cases h1 : c.isConstantEquality = true
    · simp [h1]
    · by_cases h2 : c.isEquality field = true
      · simp [h1, h2]
      · by_cases h3 : c.isLinear = true
        · simp [h1, h2, h3]
        · simp [h1, h2, h3]; omega

theorem mapSignals_eq (custom : Bool) (h : Holder) (t : Tree) :
    mapSignals custom h t = { h with
      witness := h.witness ++ t.signals
      forbidden := if custom then t.signals.foldl setInsert h.forbidden else h.forbidden } := by
  unfold mapSignals
  generalize t.signals = l
  induction l generalizing h with
  | nil => cases custom <;> simp
  | cons s l ih =>
    rw [List.foldl_cons, ih]
    cases custom <;> simp

theorem mem_foldl_setInsert (l s : List Nat) (x : Nat) : x ∈ l.foldl setInsert s ↔ x ∈ s ∨ x ∈ l := by
  induction l generalizing s with
  | nil => simp
  | cons a l ih =>
    rw [List.foldl_cons, ih, mem_setInsert, List.mem_cons]
    tauto

/-- Is template `i` a custom gate? -/
def customAt (ts : List Template) (i : Nat) : Bool := (ts[i]?.map Template.isCustomGate).getD false

theorem customAt_eq {ts : List Template} {i : Nat} {t : Template} (h : ts[i]? = some t) : customAt ts i = t.isCustomGate := by
  simp [customAt, h]

theorem mapTree_fold {ts : List Template} {d : Graph} (hb : Built ts d) (field : Int) (l : List (Nat × Nat × Name))
    (hl : ∀ y ∈ l, y.1 < ts.length) (h : Holder) :
    ∃ h', l.foldlM (fun h y => mapTree d field h (treeOf ts d y)) h = .ok h' ∧
      h'.witness = h.witness ++ l.flatMap (fun y => List.range' (y.2.1 + 1) (namesAt ts y.1).length) ∧
      (∀ x, x ∈ h'.forbidden ↔ x ∈ h.forbidden ∨ ∃ y ∈ l, customAt ts y.1 = true ∧ y.2.1 < x ∧ x ≤ y.2.1 + (namesAt ts y.1).length) ∧
      h'.constantEqualities = h.constantEqualities ++ (l.flatMap (shifted d)).filter (fun c => c.isConstantEquality) ∧
      h'.equalities = h.equalities ++ (l.flatMap (shifted d)).filter (fun c => !c.isConstantEquality && c.isEquality field) ∧
      h'.linear = h.linear ++ (l.flatMap (shifted d)).filter (fun c => !c.isConstantEquality && (!c.isEquality field && c.isLinear)) := by
  induction l generalizing h with
  | nil => exact ⟨h, rfl, by simp⟩
  | cons y l ih =>
    have hy := hl y (by simp)
    have ht : ts[y.1]? = some ts[y.1] := List.getElem?_eq_getElem hy
    obtain ⟨n, es, cs, g1, g2, g3, g4⟩ := hb.ok y.1 _ ht
    have hstep : mapTree d field h (treeOf ts d y) =
        .ok ((shifted d y).foldl (mapConstraint field) (mapSignals (customAt ts y.1) h (treeOf ts d y))) := by
      unfold mapTree
      have : (treeOf ts d y).nodeId = y.1 := rfl
      rw [this, g1, customAt_eq ht, ← g4.custom]
      rfl
    rw [List.foldlM_cons, hstep, ok_bind]
    obtain ⟨h', e1, e2, e3, e4, e5, e6⟩ := ih (fun y' hy' => hl y' (by simp [hy']))
      ((shifted d y).foldl (mapConstraint field) (mapSignals (customAt ts y.1) h (treeOf ts d y)))
    refine ⟨h', e1, ?_, fun x => ?_, ?_, ?_, ?_⟩
    · rw [e2, foldl_mapConstraint, mapSignals_eq]
      simp [treeOf]
    · rw [e3, foldl_mapConstraint, mapSignals_eq]
      simp only [List.mem_cons, exists_eq_or_imp]
      cases hcu : customAt ts y.1 with
      | false => simp
      | true =>
        simp only [if_true, mem_foldl_setInsert, true_and]
        rw [or_assoc]
        refine or_congr Iff.rfl (or_congr ?_ Iff.rfl)
        show x ∈ List.range' (y.2.1 + 1) (namesAt ts y.1).length ↔ _
        rw [List.mem_range'_1]
        omega
    · rw [e4, foldl_mapConstraint, mapSignals_eq]; simp
    · rw [e5, foldl_mapConstraint, mapSignals_eq]; simp
    · rw [e6, foldl_mapConstraint, mapSignals_eq]; simp

theorem isLinear_applyOffset {c : C} (ha : c.a.WF) (hb : c.b.WF) (o : Nat) : (c.applyOffset o).isLinear = c.isLinear := by
  unfold Constraint.isLinear Constraint.applyOffset
  simp only [rawOffset_eq _ ha, rawOffset_eq _ hb]
  cases c.a <;> cases c.b <;> rfl

theorem nonLinear_eq {ts : List Template} {d : Graph} (hb : Built ts d) {y : Nat × Nat × Name} (hy : y.1 < ts.length) :
    ((consAt d y.1).filter fun c => !c.isLinear).map (fun c => c.applyOffset y.2.1) = (shifted d y).filter fun c => !c.isLinear := by
  obtain ⟨cs, h1, h2⟩ := consAt_eq hb (List.getElem?_eq_getElem hy)
  unfold shifted
  rw [List.filter_map]
  congr 1
  apply List.filter_congr
  intro c hc
  rw [h2] at hc
  obtain ⟨⟨w1, w2, _⟩, _⟩ := wf_cleaned h1 c hc
  simp [isLinear_applyOffset w1 w2]

/-- All constraints of the instances. -/
def allConstraints (ts : List Template) (d : Graph) : List C := (allInstances ts).flatMap (shifted d)

/-- What the simplifier receives. -/
structure Mapped (ts : List Template) (d : Graph) (field : Int) (flags : Flags) (smp : Simplification.Input) (enc : Encoding) : Prop where
  enc : EncOK ts d enc
  modulus : smp.field = field
  consts : smp.consEqualities = (allConstraints ts d).filter fun c => c.isConstantEquality
  eqs : smp.equalities = (allConstraints ts d).filter fun c => !c.isConstantEquality && c.isEquality field
  linear : smp.linear = (allConstraints ts d).filter fun c => !c.isConstantEquality && (!c.isEquality field && c.isLinear)
  nonLinear : smp.nonLinear = (allConstraints ts d).filter fun c => !c.isLinear
  maxSignal : smp.maxSignal = size ts (ts.length - 1) + 1
  outs : ∀ t, ts[ts.length - 1]? = some t → smp.noPublicOutputs = noOut t ∧ smp.noPublicInputs = noPub t ∧ smp.noPrivateInputs = noPriv t
  forb : ∀ t, ts[ts.length - 1]? = some t → ∀ x, x ∈ smp.forbidden ↔ x ≤ noOut t + noPub t ∨
    ∃ y ∈ allInstances ts, customAt ts y.1 = true ∧ y.2.1 < x ∧ x ≤ y.2.1 + (namesAt ts y.1).length
  flags : smp.noRounds = flags.noRounds ∧ smp.flagS = flags.flagS ∧ smp.oldHeuristics = flags.oldHeuristics

theorem mapDag_eq {ts : List Template} (ho : Ordered ts) (hk : OrderedKnown ts) (hne : ts ≠ []) {d : Graph} (hb : Built ts d)
    (field : Int) (flags : Flags) : ∃ smp enc, mapDag d field flags = .ok (smp, enc) ∧ Mapped ts d field flags smp enc := by
  have ht := last_template hne
  obtain ⟨n, es, cs, g1, g2, g3, g4⟩ := hb.ok _ _ ht
  have hl : d.nodes.getLast? = some n := getLast?_of (by rw [hb.nodes]; exact g1)
  obtain ⟨h', e1, e2, e3, e4, e5, e6⟩ := mapTree_fold hb field (allInstances ts) (allInstances_template ho hne)
    ⟨[0], n.forbiddenIfMain, [], [], [], 0⟩
  obtain ⟨enc, f1, f2, _⟩ := encode_ok hb hk h'.noConstraints
  have hw := walk_all ho hb hne (mapTree d field) ⟨[0], n.forbiddenIfMain, [], [], [], 0⟩
  rw [e1] at hw
  obtain ⟨t0, ht0, hw⟩ := (Props.Algebra.bind_ok_iff _ _ _).1 hw
  refine ⟨_, enc, by
    unfold mapDag
    rw [hl]
    simp only
    rw [ht0, ok_bind, hw, ok_bind, f1, ok_bind, encodedNonLinear_eq ho hne f2, ok_bind], ?_⟩
  refine ⟨f2, rfl, ?_, ?_, ?_, ?_, ?_, ?_, ?_, rfl, rfl, rfl⟩
  · simp only [e4, List.nil_append]; rfl
  · simp only [e5, List.nil_append]; rfl
  · simp only [e6, List.nil_append]; rfl
  · simp only [allConstraints, List.filter_flatMap]
    rw [List.flatMap_congr]
    intro y hy
    exact nonLinear_eq hb (allInstances_template ho hne y hy)
  · simp only [e2]
    rw [allInstances_signals ho hne]
    simp [Nat.add_comm]
  · intro t ht'
    rw [ht] at ht'; cases ht'
    refine ⟨g4.outs, g4.pubs, ?_⟩
    simp only [g4.ins, g4.pubs]
    omega
  · intro t ht' x
    rw [ht] at ht'; cases ht'
    simp only
    rw [e3, g4.forb, List.mem_range]
    refine or_congr ?_ Iff.rfl
    omega

theorem filter_perm {α : Type} (P Q R : α → Bool) (l : List α) (hP : ∀ a ∈ l, P a = true → R a = true) (hQ : ∀ a ∈ l, Q a = true → R a = true) :
    (l.filter (fun a => !P a && Q a) ++ l.filter P ++ l.filter (fun a => !P a && (!Q a && R a)) ++ l.filter fun a => !R a).Perm l := by
  induction l with
  | nil => simp
  | cons a l ih =>
    have ih := ih (fun a ha => hP a (by simp [ha])) (fun a ha => hQ a (by simp [ha]))
    have hPa := hP a (by simp)
    have hQa := hQ a (by simp)
    simp only [List.filter_cons]
    cases h1 : P a <;> cases h2 : Q a <;> cases h3 : R a <;> simp [h1, h2, h3] at hPa hQa ⊢ <;>
      first
      | (simpa using ih)
      | (refine List.Perm.trans ?_ (List.Perm.cons a ih)
         simp only [List.append_assoc]
         first
         | exact List.perm_middle
         | (refine List.Perm.trans (List.Perm.append_left _ List.perm_middle) List.perm_middle)
         | (refine List.Perm.trans (List.Perm.append_left _ (List.Perm.append_left _ List.perm_middle)) ?_
            refine List.Perm.trans (List.Perm.append_left _ List.perm_middle) List.perm_middle))

theorem linear_of_constant (c : C) (h : c.isConstantEquality = true) : c.isLinear = true := by
  unfold Constraint.isConstantEquality at h
  unfold Constraint.isLinear
  simp only [Bool.and_eq_true] at h ⊢
  exact h.1

theorem linear_of_equality (c : C) (field : Int) (h : c.isEquality field = true) : c.isLinear = true := by
  unfold Constraint.isEquality at h
  unfold Constraint.isLinear
  split at h
  · rename_i hc
    simp only [Bool.and_eq_true] at hc ⊢
    exact hc.1
  · cases h

theorem original_perm {ts : List Template} {d : Graph} {field : Int} {flags : Flags} {smp : Simplification.Input} {enc : Encoding}
    (h : Mapped ts d field flags smp enc) : (original smp).Perm (allConstraints ts d) := by
  unfold original
  rw [h.consts, h.eqs, h.linear, h.nonLinear]
  exact filter_perm _ _ _ _ (fun c _ hc => linear_of_constant c hc) (fun c _ hc => linear_of_equality c field hc)

/-- The simplifier's input satisfies what the simplifier relies on. -/
theorem mapped_valid {ts : List Template} (h : Program p ts) {d : Graph} (hb : Built ts d) {flags : Flags} {smp : Simplification.Input}
    {enc : Encoding} (hm : Mapped ts d p flags smp enc) : Valid p smp := by
  have ho := h.named.order
  have hne := h.nonempty
  have ht := last_template hne
  obtain ⟨o1, o2, o3⟩ := hm.outs _ ht
  have hmem : ∀ c, c ∈ original smp → ∃ y ∈ allInstances ts, c ∈ shifted d y := fun c hc =>
    List.mem_flatMap.1 ((original_perm hm).mem_iff.1 hc)
  have hsz := size_eq ho ht
  have hloc := noLoc_eq (ts.getLast hne)
  refine ⟨hm.modulus, fun c hc => ?_, fun c hc => ?_, fun c hc => ?_, fun c hc => ?_, fun c hc x hx => ?_, fun x hx => ?_, ?_⟩
  · obtain ⟨y, hy, hcy⟩ := hmem c hc
    exact (shifted_tidy h hb (allInstances_template ho hne y hy) c hcy).1
  · rw [hm.eqs] at hc
    have := (List.mem_filter.1 hc).2
    simp only [Bool.and_eq_true] at this
    exact this.2
  · rw [hm.consts] at hc
    exact (List.mem_filter.1 hc).2
  · rw [hm.linear] at hc
    have := (List.mem_filter.1 hc).2
    simp only [Bool.and_eq_true] at this
    have h2 := this.2.2
    unfold Constraint.isLinear at h2
    simpa [List.isEmpty_iff] using h2
  · obtain ⟨y, hy, hcy⟩ := hmem c hc
    have h1 := (shifted_tidy h hb (allInstances_template ho hne y hy) c hcy).2 x ((Props.Simplification.mem_wires c x).1 hx)
    have h2 := allInstances_range ho hne y hy
    rw [hm.maxSignal]
    omega
  · rw [hm.forb _ ht, ← o1]
    left
    omega
  · rw [hm.maxSignal]
    omega

end Verif.Dag
