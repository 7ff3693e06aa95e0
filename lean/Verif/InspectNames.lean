import Verif.InspectLemmas

/-! # The signals a template can reach, by arrays -/

set_option linter.unusedSectionVars false
set_option linter.unusedSimpArgs false
set_option linter.unusedVariables false

namespace Verif.Inspect
open Verif.ModArith (Res Fail)
open Verif.Algebra Verif.Dag
open Verif.Props.Algebra (ok_bind)

variable {p : Nat}

/-- Spec: the signal arrays of some wires: the name without the last indices and the names of all elements. -/
def arrays (pre : Name) : Wires → List (Name × List Name)
  | .nil => []
  | .signal n ds rest => (pre ++ n, arrayNames (pre ++ n) ds) :: arrays pre rest
  | .bus n ds fields rest => ((arrayNames (pre ++ n) ds).flatMap fun b => arrays (b ++ ['.']) fields) ++ arrays pre rest

/-- The outputs and inputs of a template. -/
def ports (t : Template) : Wires := t.outputs.append (t.publicInputs.append t.privateInputs)

/-- Spec: the arrays a template can constrain: its own (`true`), and the inputs and outputs of its subcomponents (`false`). -/
def exposed (ts : List Template) (t : Template) : List (Bool × Name × List Name) :=
  ((arrays [] t.wires).map fun a => (true, a)) ++
    t.connexions.flatMap fun c => ((ts[c.2]?.map fun k => arrays (c.1 ++ ['.']) (ports k)).getD []).map fun a => (false, a)

/-- Names of the inputs and outputs of the template with a number. -/
def portsAt (ts : List Template) (i : Nat) : List Name := (ts[i]?.map fun t => (ports t).names []).getD []

/-- The signals a template can constrain. -/
def Visible (ts : List Template) (t : Template) (s : Name) : Prop :=
  s ∈ locNames t ∨ ∃ c ∈ t.connexions, ∃ x ∈ portsAt ts c.2, s = c.1 ++ '.' :: x

theorem arrays_names (w : Wires) (pre : Name) : (arrays pre w).flatMap Prod.snd = w.names pre := by
  induction w generalizing pre with
  | nil => rfl
  | signal n ds rest ih => simp [arrays, Wires.names, ih]
  | bus n ds f rest ihf ih =>
    simp only [arrays, Wires.names, List.flatMap_append, ih, List.flatMap_assoc, ihf]

theorem suffixes_open (ds : List Nat) : ∀ r ∈ suffixes ds, r = [] ∨ ∃ r', r = '[' :: r' := by
  cases ds with
  | nil => simp [suffixes]
  | cons d ds =>
    intro r hr
    simp only [suffixes, List.mem_flatMap, List.mem_map] at hr
    obtain ⟨i, _, q, _, rfl⟩ := hr
    exact Or.inr ⟨_, rfl⟩

theorem arrays_stem (w : Wires) (hw : w.Proper) (pre : Name) (hp : Front pre) : ∀ a ∈ arrays pre w, ∀ s ∈ a.2, stem s = a.1 := by
  induction w generalizing pre with
  | nil => simp [arrays]
  | signal n ds rest ih =>
    intro a ha s hs
    rcases List.mem_cons.1 ha with rfl | ha
    · simp only [arrayNames_eq, List.mem_map] at hs
      obtain ⟨r, hr, rfl⟩ := hs
      exact stem_of hp hw.1 (suffixes_open ds r hr) (suffixes_dot ds r hr)
    · exact ih hw.2 pre hp a ha s hs
  | bus n ds f rest ihf ih =>
    intro a ha s hs
    rcases List.mem_append.1 ha with ha | ha
    · obtain ⟨b, hb, ha⟩ := List.mem_flatMap.1 ha
      exact ihf hw.2.1 _ (Or.inr ⟨b, rfl⟩) a ha s hs
    · exact ih hw.2.2.2 pre hp a ha s hs

/-- The wires with the signals made scalars. -/
def scalars : Wires → Wires
  | .nil => .nil
  | .signal n _ rest => .signal n [] (scalars rest)
  | .bus n ds f rest => .bus n ds (scalars f) (scalars rest)

theorem scalars_names (w : Wires) (pre : Name) : (scalars w).names pre = (arrays pre w).map Prod.fst := by
  induction w generalizing pre with
  | nil => rfl
  | signal n ds rest ih => simp [scalars, arrays, Wires.names, arrayNames, ih]
  | bus n ds f rest ihf ih =>
    simp only [scalars, arrays, Wires.names, List.map_append, ih, List.map_flatMap, ihf]

theorem scalars_ids (w : Wires) : (scalars w).ids = w.ids := by
  induction w with
  | nil => rfl
  | signal n ds rest ih => simp [scalars, Wires.ids, ih]
  | bus n ds f rest ihf ih => simp [scalars, Wires.ids, ih]

theorem scalars_proper (w : Wires) (h : w.Proper) : (scalars w).Proper := by
  induction w with
  | nil => trivial
  | signal n ds rest ih => exact ⟨h.1, ih h.2⟩
  | bus n ds f rest ihf ih => exact ⟨h.1, ihf h.2.1, by rw [scalars_ids]; exact h.2.2.1, ih h.2.2.2⟩

theorem arrays_nodup (w : Wires) (hw : w.Proper) (hi : w.ids.Nodup) (pre : Name) : ((arrays pre w).map Prod.fst).Nodup := by
  rw [← scalars_names]
  exact names_nodup _ (scalars_proper w hw) (by rw [scalars_ids]; exact hi) pre

theorem arrays_base (w : Wires) (hw : w.Proper) (pre : Name) {a : Name × List Name} (ha : a ∈ arrays pre w) :
    ∃ id ∈ w.ids, ∃ r, a.1 = pre ++ (id ++ r) ∧ Rest r ∧ Plain id := by
  have : a.1 ∈ (scalars w).names pre := by rw [scalars_names]; exact List.mem_map_of_mem (f := Prod.fst) ha
  rw [← scalars_ids w]
  exact names_base _ (scalars_proper w hw) pre _ this

theorem append_ids (w w' : Wires) : (w.append w').ids = w.ids ++ w'.ids := by
  induction w with
  | nil => rfl
  | signal n ds rest ih => simp [Wires.append, Wires.ids, ih]
  | bus n ds f rest ihf ih => simp [Wires.append, Wires.ids, ih]

theorem append_proper (w w' : Wires) : (w.append w').Proper ↔ w.Proper ∧ w'.Proper := by
  induction w with
  | nil => simp [Wires.append, Wires.Proper]
  | signal n ds rest ih => simp only [Wires.append, Wires.Proper, ih, and_assoc]
  | bus n ds f rest ihf ih => simp only [Wires.append, Wires.Proper, ih, and_assoc]

theorem append_append (a b c : Wires) : (a.append b).append c = a.append (b.append c) := by
  induction a with
  | nil => rfl
  | signal n ds rest ih => simp [Wires.append, ih]
  | bus n ds f rest ihf ih => simp [Wires.append, ih]

theorem wires_ports (t : Template) : t.wires = (ports t).append t.intermediates := by
  unfold Template.wires ports
  rw [append_append, append_append]

theorem ports_proper {t : Template} (h : t.wires.Proper) : (ports t).Proper := by
  rw [wires_ports, append_proper] at h
  exact h.1

theorem ports_ids {t : Template} (h : t.wires.ids.Nodup) : (ports t).ids.Nodup := by
  rw [wires_ports, append_ids, List.nodup_append'] at h
  exact h.1

theorem names_pre (w : Wires) (q pre : Name) : w.names (q ++ pre) = (w.names pre).map (q ++ ·) := by
  induction w generalizing pre with
  | nil => rfl
  | signal n ds rest ih => simp [Wires.names, ih, arrayNames_eq]
  | bus n ds f rest ihf ih =>
    simp only [Wires.names, List.map_append, ih, arrayNames_eq, List.map_flatMap, List.flatMap_map]
    congr 1
    congr 1
    funext r
    have : q ++ pre ++ n ++ r ++ ['.'] = q ++ (pre ++ n ++ r ++ ['.']) := by simp
    rw [this, ihf]

theorem ports_length (t : Template) : ((ports t).names []).length = noPub t + noPriv t + noOut t := by
  simp only [ports, names_append, List.length_append, noPub, noPriv, noOut]
  omega

theorem portsAt_take (ts : List Template) (i : Nat) : portsAt ts i = (namesAt ts i).take (ioAt ts i) := by
  unfold portsAt namesAt ioAt
  cases ts[i]? with
  | none => rfl
  | some t =>
    simp only [Option.map_some, Option.getD_some]
    rw [locNames_eq, wires_ports, names_append, ← ports_length, List.take_left']
    rfl

/-- A template's arrays of subcomponents, one by one. -/
theorem mem_exposed {ts : List Template} {t : Template} {a : Bool × Name × List Name} : a ∈ exposed ts t ↔
    (a.1 = true ∧ a.2 ∈ arrays [] t.wires) ∨
      (a.1 = false ∧ ∃ c ∈ t.connexions, ∃ k, ts[c.2]? = some k ∧ a.2 ∈ arrays (c.1 ++ ['.']) (ports k)) := by
  obtain ⟨b, a⟩ := a
  unfold exposed
  simp only [List.mem_append, List.mem_map, List.mem_flatMap, Prod.mk.injEq]
  refine or_congr ⟨?_, ?_⟩ ⟨?_, ?_⟩
  · rintro ⟨x, hx, h1, rfl⟩; exact ⟨h1.symm, hx⟩
  · rintro ⟨h1, hx⟩; exact ⟨a, hx, h1.symm, rfl⟩
  · rintro ⟨c, hc, x, hx, h1, rfl⟩
    cases hk : ts[c.2]? with
    | none => simp [hk] at hx
    | some k => exact ⟨h1.symm, c, hc, k, hk, by simpa [hk] using hx⟩
  · rintro ⟨h1, c, hc, k, hk, hx⟩
    exact ⟨c, hc, a, by simpa [hk] using hx, h1.symm, rfl⟩

theorem exposed_cover {ts : List Template} {t : Template} {s : Name} : Visible ts t s ↔ ∃ a ∈ exposed ts t, s ∈ a.2.2 := by
  constructor
  · rintro (h | ⟨c, hc, x, hx, rfl⟩)
    · rw [locNames_eq, ← arrays_names, List.mem_flatMap] at h
      obtain ⟨a, ha, hs⟩ := h
      exact ⟨(true, a), mem_exposed.2 (Or.inl ⟨rfl, ha⟩), hs⟩
    · unfold portsAt at hx
      cases hk : ts[c.2]? with
      | none => simp [hk] at hx
      | some k =>
        simp only [hk, Option.map_some, Option.getD_some] at hx
        have : c.1 ++ '.' :: x ∈ (ports k).names (c.1 ++ ['.']) := by
          have h2 := names_pre (ports k) (c.1 ++ ['.']) []
          rw [List.append_nil] at h2
          rw [h2]
          exact List.mem_map.2 ⟨x, hx, by simp⟩
        rw [← arrays_names, List.mem_flatMap] at this
        obtain ⟨a, ha, hs⟩ := this
        exact ⟨(false, a), mem_exposed.2 (Or.inr ⟨rfl, c, hc, k, hk, ha⟩), hs⟩
  · rintro ⟨a, ha, hs⟩
    rcases mem_exposed.1 ha with ⟨_, h⟩ | ⟨_, c, hc, k, hk, h⟩
    · left
      rw [locNames_eq, ← arrays_names]
      exact List.mem_flatMap.2 ⟨a.2, h, hs⟩
    · right
      have : s ∈ (ports k).names (c.1 ++ ['.']) := by
        rw [← arrays_names]
        exact List.mem_flatMap.2 ⟨a.2, h, hs⟩
      have h2 := names_pre (ports k) (c.1 ++ ['.']) []
      rw [List.append_nil] at h2
      rw [h2] at this
      obtain ⟨x, hx, rfl⟩ := List.mem_map.1 this
      exact ⟨c, hc, x, by simp [portsAt, hk, hx], by simp⟩

theorem exposed_kind {ts : List Template} (h : WellNamed ts) {t : Template} (ht : t ∈ ts) {a : Bool × Name × List Name}
    (ha : a ∈ exposed ts t) {s : Name} (hs : s ∈ a.2.2) : a.1 = true ↔ s ∈ locNames t := by
  rcases mem_exposed.1 ha with ⟨h1, h2⟩ | ⟨h1, c, hc, k, hk, h2⟩
  · simp only [h1, true_iff]
    rw [locNames_eq, ← arrays_names]
    exact List.mem_flatMap.2 ⟨a.2, h2, hs⟩
  · simp only [h1, Bool.false_eq_true, false_iff]
    intro hl
    have hb := base_local (h.proper t ht) hl
    have : s ∈ (ports k).names (c.1 ++ ['.']) := by
      rw [← arrays_names]
      exact List.mem_flatMap.2 ⟨a.2, h2, hs⟩
    have h2 := names_pre (ports k) (c.1 ++ ['.']) []
    rw [List.append_nil] at h2
    rw [h2] at this
    obtain ⟨x, hx, rfl⟩ := List.mem_map.1 this
    rw [List.append_assoc, List.singleton_append, base_child] at hb
    exact (h.label t ht c hc).2 hb

theorem exposed_stem {ts : List Template} (h : WellNamed ts) {t : Template} (ht : t ∈ ts) {a : Bool × Name × List Name}
    (ha : a ∈ exposed ts t) {s : Name} (hs : s ∈ a.2.2) : stem s = a.2.1 := by
  rcases mem_exposed.1 ha with ⟨h1, h2⟩ | ⟨h1, c, hc, k, hk, h2⟩
  · exact arrays_stem _ (h.proper t ht) [] (Or.inl rfl) _ h2 s hs
  · exact arrays_stem _ (ports_proper (h.proper k (List.mem_of_getElem? hk))) _ (Or.inr ⟨c.1, rfl⟩) _ h2 s hs

theorem exposed_inj {ts : List Template} (h : WellNamed ts) {t : Template} (ht : t ∈ ts) {a a' : Bool × Name × List Name}
    (ha : a ∈ exposed ts t) (ha' : a' ∈ exposed ts t) (he : a.2.1 = a'.2.1) : a = a' := by
  have mixed : ∀ a a' : Bool × Name × List Name, a.2 ∈ arrays [] t.wires → ∀ c ∈ t.connexions, ∀ k, ts[c.2]? = some k →
      a'.2 ∈ arrays (c.1 ++ ['.']) (ports k) → a.2.1 = a'.2.1 → False := by
    intro a a' h2 c hc k hk h2' he
    obtain ⟨id, i1, r, i2, i3, i4⟩ := arrays_base _ (h.proper t ht) [] h2
    obtain ⟨id', _, r', i2', _, _⟩ := arrays_base _ (ports_proper (h.proper k (List.mem_of_getElem? hk))) _ h2'
    have hb : base a.2.1 = id := by rw [i2, List.nil_append, base_append i4.2 i3]
    have hb' : base a'.2.1 = base c.1 := by
      rw [i2', List.append_assoc, List.singleton_append, base_child]
    rw [he, hb'] at hb
    exact (h.label t ht c hc).2 (hb ▸ i1)
  rcases mem_exposed.1 ha with ⟨h1, h2⟩ | ⟨h1, c, hc, k, hk, h2⟩ <;> rcases mem_exposed.1 ha' with ⟨h1', h2'⟩ | ⟨h1', c', hc', k', hk', h2'⟩
  · have := List.inj_on_of_nodup_map (arrays_nodup _ (h.proper t ht) (h.ids t ht) []) h2 h2' he
    exact Prod.ext (h1.trans h1'.symm) this
  · exact (mixed a a' h2 c' hc' k' hk' h2' he).elim
  · exact (mixed a' a h2' c hc k hk h2 he.symm).elim
  · obtain ⟨id, _, r, i2, _, _⟩ := arrays_base _ (ports_proper (h.proper k (List.mem_of_getElem? hk))) _ h2
    obtain ⟨id', _, r', i2', _, _⟩ := arrays_base _ (ports_proper (h.proper k' (List.mem_of_getElem? hk'))) _ h2'
    have hl : c.1 = c'.1 := by
      rw [i2, i2', List.append_assoc, List.append_assoc, List.singleton_append, List.singleton_append] at he
      exact (split_at (h.label t ht c hc).1 (h.label t ht c' hc').1 he).1
    have hcc : c = c' := List.inj_on_of_nodup_map (h.labels t ht) hc hc' hl
    subst hcc
    rw [hk] at hk'
    injection hk' with hk'
    subst hk'
    have hmem := List.mem_of_getElem? hk
    have := List.inj_on_of_nodup_map (arrays_nodup _ (ports_proper (h.proper k hmem)) (ports_ids (h.ids k hmem)) _) h2 h2' he
    exact Prod.ext (h1.trans h1'.symm) this

/-! ## Numbers of visible signals -/

theorem table_local {ts : List Template} {t : Template} {x : Nat} {s : Name} (h : (locNames t)[x]? = some s) : (s, x + 1) ∈ table ts t := by
  unfold table
  rw [List.mem_append]
  left
  rw [List.mk_mem_zipIdx_iff_le_and_getElem?_sub]
  exact ⟨by omega, by simpa using h⟩

theorem table_child {ts : List Template} {t : Template} {k : Name × Nat × Nat} (hk : k ∈ kids ts t) {x : Nat} {s : Name}
    (h : (namesAt ts k.2.1)[x]? = some s) : (k.1 ++ '.' :: s, k.2.2 + 1 + x) ∈ table ts t := by
  unfold table
  rw [List.mem_append]
  right
  refine List.mem_flatMap.2 ⟨k, hk, ?_⟩
  unfold childNames
  exact List.mem_map.2 ⟨(s, k.2.2 + 1 + x), List.mk_add_mem_zipIdx_iff_getElem?.2 h, rfl⟩

theorem table_key {ts : List Template} (h : WellNamed ts) {t : Template} (ht : t ∈ ts) {s : Name} {x y : Nat}
    (hx : (s, x) ∈ table ts t) (hy : (s, y) ∈ table ts t) : x = y := by
  have := List.inj_on_of_nodup_map (table_fresh h t ht) hx hy rfl
  exact congrArg Prod.snd this

theorem table_value {ts : List Template} (h : WellNamed ts) {i : Nat} {t : Template} (ht : ts[i]? = some t) {s s' : Name} {x : Nat}
    (hx : (s, x) ∈ table ts t) (hy : (s', x) ∈ table ts t) : s = s' := by
  have := List.inj_on_of_nodup_map (table_values h.order ht).2 hx hy rfl
  exact congrArg Prod.fst this

/-- Subcomponents with their places. -/
theorem kid_of {ts : List Template} {t : Template} {c : Name × Nat} (hc : c ∈ t.connexions) : ∃ k ∈ kids ts t, k.1 = c.1 ∧ k.2.1 = c.2 := by
  have : ∀ (o : Nat) (cs : List (Name × Nat)), (layout (size ts) o cs).map (fun k => (k.1, k.2.1)) = cs := by
    intro o cs
    induction cs generalizing o with
    | nil => rfl
    | cons c cs ih => simp [layout, ih]
  have hm : c ∈ (kids ts t).map fun k => (k.1, k.2.1) := by unfold kids; rw [this]; exact hc
  obtain ⟨k, hk, he⟩ := List.mem_map.1 hm
  exact ⟨k, hk, by rw [← he], by rw [← he]⟩

theorem local_number {ts : List Template} (h : WellNamed ts) {i : Nat} {t : Template} (ht : ts[i]? = some t) {s : Name} {x : Nat}
    (hx : (s, x) ∈ table ts t) : x ∈ List.range' 1 (noLoc t) ↔ s ∈ locNames t := by
  have hmem := List.mem_of_getElem? ht
  constructor
  · intro hr
    rw [List.mem_range'_1] at hr
    have hlt : x - 1 < (locNames t).length := by unfold noLoc at hr; omega
    have h2 := table_local (ts := ts) (t := t) (x := x - 1) (List.getElem?_eq_getElem hlt)
    rw [Nat.sub_add_cancel hr.1] at h2
    rw [table_value h ht hx h2]
    exact List.getElem_mem hlt
  · intro hs
    obtain ⟨j, hj⟩ := List.mem_iff_getElem?.1 hs
    rw [table_key h hmem hx (table_local hj), List.mem_range'_1]
    have := (List.getElem?_eq_some_iff.1 hj).1
    unfold noLoc
    omega

theorem reach_number {ts : List Template} (h : WellNamed ts) {i : Nat} {t : Template} (ht : ts[i]? = some t) {n : Node} {es : List Edge} {cs : List C}
    (hn : NodeOK ts i t n es cs) {s : Name} {x : Nat} (hx : (s, x) ∈ table ts t) : x ∈ n.reachables ↔ Visible ts t s := by
  have hmem := List.mem_of_getElem? ht
  rw [hn.reach]
  constructor
  · rintro (⟨h1, h2⟩ | ⟨k, hk, h1, h2, h3⟩)
    · left
      rw [← local_number h ht hx, List.mem_range'_1]
      omega
    · right
      have hlt : x - (k.2.2 + 1) < (namesAt ts k.2.1).length := by omega
      have h4 := table_child (ts := ts) (t := t) hk (List.getElem?_eq_getElem hlt)
      rw [show k.2.2 + 1 + (x - (k.2.2 + 1)) = x by omega] at h4
      rw [table_value h ht hx h4]
      refine ⟨(k.1, k.2.1), layout_target hk, _, ?_, rfl⟩
      show _ ∈ portsAt ts k.2.1
      rw [portsAt_take, List.mem_take_iff_getElem]
      exact ⟨_, by omega, rfl⟩
  · rintro (hs | ⟨c, hc, y, hy, rfl⟩)
    · left
      have := (local_number h ht hx).2 hs
      rw [List.mem_range'_1] at this
      omega
    · right
      obtain ⟨k, hk, h1, h2⟩ := kid_of (ts := ts) hc
      rw [portsAt_take, ← h2, List.mem_take_iff_getElem] at hy
      obtain ⟨j, hj, rfl⟩ := hy
      have h4 := table_child (ts := ts) (t := t) hk (List.getElem?_eq_getElem (show j < (namesAt ts k.2.1).length by omega))
      rw [h1] at h4
      have := table_key h hmem hx h4
      exact ⟨k, hk, by omega, by omega, by omega⟩

theorem visible_known {ts : List Template} {t : Template} {s : Name} (h : Visible ts t s) : Known ts t s := by
  rcases h with h | ⟨c, hc, x, hx, rfl⟩
  · exact Or.inl h
  · refine Or.inr ⟨c, hc, x, ?_, rfl⟩
    rw [portsAt_take] at hx
    exact List.mem_of_mem_take hx

/-- Spec: a signal appears in a constraint of a template with a coefficient that is not zero. -/
def Appears (t : Template) (s : Name) : Prop := ∃ c ∈ t.constraints, ∃ e ∈ terms c, e.1 = s ∧ e.2 ≠ 0

theorem known_ne {ts : List Template} (h : WellNamed ts) {t : Template} (ht : t ∈ ts) {s : Name} (hs : Known ts t s) : s ≠ [] := by
  rcases hs with hs | ⟨c, _, x, _, rfl⟩
  · rw [locNames_eq] at hs
    obtain ⟨id, _, r, rfl, _, h4⟩ := names_base _ (h.proper t ht) [] s hs
    simp [h4.1]
  · simp

theorem occurs_rename {K K' : Type} [DecidableEq K] [Inhabited K] [DecidableEq K'] [Inhabited K'] (f : K → K') (c : Constraint K) (x : K') :
    (rename f c).Occurs x ↔ ∃ y, c.Occurs y ∧ f y = x := by
  unfold Constraint.Occurs rename CMap.keys
  simp only [List.map_map, List.mem_map, Function.comp_apply]
  constructor
  · rintro (⟨e, he, rfl⟩ | ⟨e, he, rfl⟩ | ⟨e, he, rfl⟩)
    · exact ⟨e.1, Or.inl ⟨e, he, rfl⟩, rfl⟩
    · exact ⟨e.1, Or.inr (Or.inl ⟨e, he, rfl⟩), rfl⟩
    · exact ⟨e.1, Or.inr (Or.inr ⟨e, he, rfl⟩), rfl⟩
  · rintro ⟨y, ⟨e, he, rfl⟩ | ⟨e, he, rfl⟩ | ⟨e, he, rfl⟩, rfl⟩
    · exact Or.inl ⟨e, he, rfl⟩
    · exact Or.inr (Or.inl ⟨e, he, rfl⟩)
    · exact Or.inr (Or.inr ⟨e, he, rfl⟩)

theorem occurs_removeZeros (c : Constraint Name) (s : Name) : c.removeZeros.Occurs s ↔ ∃ e ∈ terms c, e.1 = s ∧ e.2 ≠ 0 := by
  rw [occurs_iff]
  have : terms c.removeZeros = (terms c).filter fun e => decide (e.2 ≠ 0) := by
    simp [terms, Constraint.removeZeros, Algebra.removeZeros, List.filter_append]
  rw [this]
  constructor
  · rintro ⟨e, he, rfl⟩
    simp only [List.mem_filter, decide_eq_true_eq] at he
    exact ⟨e, he.1, rfl, he.2⟩
  · rintro ⟨e, he, rfl, h0⟩
    exact ⟨e, by simp [he, h0], rfl⟩

theorem not_empty_of_occurs {K : Type} [DecidableEq K] [Inhabited K] {c : Constraint K} {s : K} (h : c.Occurs s) : c.isEmpty = false := by
  unfold Constraint.isEmpty
  rcases h with h | h | h
  · cases hc : c.a with
    | nil => simp [hc, CMap.keys] at h
    | cons => simp
  · cases hc : c.b with
    | nil => simp [hc, CMap.keys] at h
    | cons => simp
  · cases hc : c.c with
    | nil => simp [hc, CMap.keys] at h
    | cons => simp

/-- The numbers in the constraints of a node. -/
theorem node_occurs {ts : List Template} (h : Program p ts) {i : Nat} {t : Template} (ht : ts[i]? = some t) {cs : List C}
    (hcs : numbered ts t = .ok cs) (x : Nat) :
    (∃ c ∈ cleaned cs, c.Occurs x) ↔ ∃ s, Appears t s ∧ corrMap (fun s => NMap.get (table ts t) s) s = x := by
  have hmem := List.mem_of_getElem? ht
  have hgood := h.constraints t hmem
  have hnum : numbered ts t = .ok (t.constraints.map (rename (corrMap fun s => NMap.get (table ts t) s))) := by
    unfold numbered
    exact mapM_ok_of _ _ _ fun c hc => applyCorrespondence_eq c (hgood c hc).nodup.1 (hgood c hc).nodup.2.1 (hgood c hc).nodup.2.2 _
      (good_renaming h.named ht (hgood c hc))
  rw [hcs] at hnum
  injection hnum with hnum
  subst hnum
  unfold cleaned
  rw [List.map_map]
  simp only [List.mem_filter, List.mem_map, Function.comp_apply]
  constructor
  · rintro ⟨_, ⟨⟨c, hc, rfl⟩, _⟩, ho⟩
    rw [removeZeros_rename, occurs_rename] at ho
    obtain ⟨s, hs, rfl⟩ := ho
    obtain ⟨e, he, h1, h2⟩ := (occurs_removeZeros c s).1 hs
    exact ⟨s, ⟨c, hc, e, he, h1, h2⟩, rfl⟩
  · rintro ⟨s, ⟨c, hc, e, he, h1, h2⟩, rfl⟩
    have ho := (occurs_removeZeros c s).2 ⟨e, he, h1, h2⟩
    have ho' : (rename (corrMap fun s => NMap.get (table ts t) s) c).removeZeros.Occurs (corrMap (fun s => NMap.get (table ts t) s) s) := by
      rw [removeZeros_rename, occurs_rename]
      exact ⟨s, ho, rfl⟩
    exact ⟨_, ⟨⟨c, hc, rfl⟩, by rw [not_empty_of_occurs ho']; rfl⟩, ho'⟩

theorem corr_known {ts : List Template} (h : WellNamed ts) {t : Template} (ht : t ∈ ts) {s : Name} {x : Nat} (hx : (s, x) ∈ table ts t) :
    corrMap (fun s => NMap.get (table ts t) s) s = x := by
  have hne := known_ne h ht ((known_iff ts t s).1 (List.mem_map_of_mem (f := Prod.fst) hx))
  have hd : s ≠ default := hne
  unfold corrMap
  simp only [if_neg hd, (NMap.get_eq_some (table_fresh h t ht)).2 hx, Option.getD_some]

/-- What a template's constraints use. -/
theorem appears_known {ts : List Template} (h : Program p ts) {t : Template} (ht : t ∈ ts) {s : Name} (hs : Appears t s) :
    s = [] ∨ ∃ x, (s, x) ∈ table ts t := by
  obtain ⟨c, hc, e, he, rfl, _⟩ := hs
  rcases (h.constraints t ht c hc).known e he with h0 | hk
  · exact Or.inl h0
  · obtain ⟨y, hy, he⟩ := List.mem_map.1 ((known_iff ts t e.1).2 hk)
    exact Or.inr ⟨y.2, by rw [← he]; exact hy⟩

/-- The mentions of a node, in names: `us` are the underscored signals. -/
theorem mentions_number {ts : List Template} (h : Program p ts) {i : Nat} {t : Template} (ht : ts[i]? = some t) {n : Node} {es : List Edge}
    {cs : List C} (hcs : numbered ts t = .ok cs) (hn : NodeOK ts i t n es (cleaned cs)) {us : List Name} {ids : List Nat}
    (hu : List.Forall₂ (fun s x => (s, x) ∈ table ts t) us ids) {s : Name} {x : Nat} (hx : (s, x) ∈ table ts t) :
    x ∈ mentions n ids ↔ Appears t s ∨ s ∈ us := by
  have hmem := List.mem_of_getElem? ht
  have hpos := (table_values h.named.order ht).1 x (List.mem_map_of_mem (f := Prod.snd) hx)
  rw [mem_mentions, hn.constraints, node_occurs h ht hcs]
  refine or_congr ⟨?_, ?_⟩ ?_
  · rintro ⟨_, s', hs', he⟩
    rcases appears_known h hmem hs' with rfl | ⟨y, hy⟩
    · rw [show corrMap (fun s => NMap.get (table ts t) s) [] = 0 from rfl] at he
      omega
    · rw [corr_known h.named hmem hy] at he
      subst he
      rw [table_value h.named ht hx hy]
      exact hs'
  · intro hs
    exact ⟨by omega, s, hs, corr_known h.named hmem hx⟩
  · induction hu with
    | nil => simp
    | cons hh _ ih =>
      simp only [List.mem_cons]
      refine or_congr ⟨?_, ?_⟩ ih
      · rintro rfl; exact table_value h.named ht hx hh
      · rintro rfl; exact table_key h.named hmem hx hh

theorem mentions_names {ts : List Template} (h : Program p ts) {i : Nat} {t : Template} (ht : ts[i]? = some t) {n : Node} {es : List Edge}
    {cs : List C} (hcs : numbered ts t = .ok cs) (hn : NodeOK ts i t n es (cleaned cs)) {us : List Name} {ids : List Nat}
    (hu : List.Forall₂ (fun s x => (s, x) ∈ table ts t) us ids) {x : Nat} (hx : x ∈ mentions n ids) : ∃ s, (s, x) ∈ table ts t := by
  have hmem := List.mem_of_getElem? ht
  rw [mem_mentions, hn.constraints, node_occurs h ht hcs] at hx
  rcases hx with ⟨h0, s, hs, rfl⟩ | hx
  · rcases appears_known h hmem hs with rfl | ⟨y, hy⟩
    · exact absurd rfl h0
    · rw [corr_known h.named hmem hy]; exact ⟨s, hy⟩
  · obtain ⟨s, _, hs⟩ := forall₂_mem hu hx
    exact ⟨s, hs⟩

end Verif.Inspect
