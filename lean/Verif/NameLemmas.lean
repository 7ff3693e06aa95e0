import Verif.WalkLemmas
import Mathlib.Data.List.Nodup

/-! # Lemmas about signal names: distinct identifiers give distinct names -/

set_option linter.unusedSectionVars false
set_option linter.unusedSimpArgs false

namespace Verif.Dag
open Verif.ModArith (Res Fail)
open Verif.Algebra
open Verif.Props.Algebra (ok_bind)

/-- Characters that cannot occur in an identifier. -/
def isSep (c : Char) : Bool := c == '.' || c == '['

/-- An identifier: not empty, without dots and brackets. -/
def Plain (n : Name) : Prop := n ≠ [] ∧ n.all (fun c => !isSep c) = true

instance (n : Name) : Decidable (Plain n) := by unfold Plain; infer_instance

/-- Every wire and bus field has an identifier as name, fields of a bus have different names. -/
def Wires.Proper : Wires → Prop
  | .nil => True
  | .signal n _ rest => Plain n ∧ rest.Proper
  | .bus n _ f rest => Plain n ∧ f.Proper ∧ f.ids.Nodup ∧ rest.Proper

def Wires.decProper : (w : Wires) → Decidable w.Proper
  | .nil => isTrue trivial
  | .signal n _ rest => by unfold Wires.Proper; have := rest.decProper; infer_instance
  | .bus n _ f rest => by unfold Wires.Proper; have := rest.decProper; have := f.decProper; infer_instance

instance (w : Wires) : Decidable w.Proper := w.decProper

/-- All wires of a template in the order of numbering. -/
def Template.wires (t : Template) : Wires := t.outputs.append (t.publicInputs.append (t.privateInputs.append t.intermediates))

/-- The identifier at the start of a name. -/
def base (n : Name) : Name := n.takeWhile fun c => !isSep c

theorem names_append (w w' : Wires) (pre : Name) : (w.append w').names pre = w.names pre ++ w'.names pre := by
  induction w with
  | nil => rfl
  | signal n ds rest ih => simp [Wires.append, Wires.names, ih]
  | bus n ds f rest ihf ih => simp [Wires.append, Wires.names, ih]

theorem locNames_eq (t : Template) : locNames t = t.wires.names [] := by
  simp [locNames, Template.wires, names_append]

/-! ## Suffixes of array elements -/

/-- The index suffixes of an array. -/
def suffixes : List Nat → List Name
  | [] => [[]]
  | d :: ds => (List.range d).flatMap fun i => (suffixes ds).map fun r => '[' :: digits i ++ ']' :: r

theorem arrayNames_eq (q : Name) (ds : List Nat) : arrayNames q ds = (suffixes ds).map (q ++ ·) := by
  induction ds generalizing q with
  | nil => simp [arrayNames, suffixes]
  | cons d ds ih =>
    simp only [arrayNames, suffixes, List.map_flatMap, List.map_map]
    congr 1
    funext i
    rw [ih]
    apply List.map_congr_left
    intro r _
    simp

theorem digits_isDigit {i : Nat} {c : Char} (h : c ∈ digits i) : c.isDigit = true :=
  Nat.isDigit_of_mem_toDigits (by omega) (by omega) h

theorem digits_inj {i j : Nat} (h : digits i = digits j) : i = j := by
  have hi := Nat.ofDigitChars_ten_toDigits (n := i)
  have hj := Nat.ofDigitChars_ten_toDigits (n := j)
  unfold digits at h
  rw [h, hj] at hi
  exact hi.symm

theorem split_at {c : Char} : ∀ {u u' v v' : Name}, c ∉ u → c ∉ u' → u ++ c :: v = u' ++ c :: v' → u = u' ∧ v = v'
  | [], [], v, v', _, _, h => by simpa using h
  | [], y :: u', v, v', _, hu', h => by
    simp only [List.nil_append, List.cons_append, List.cons.injEq] at h
    exact absurd (by simp [h.1]) hu'
  | x :: u, [], v, v', hu, _, h => by
    simp only [List.nil_append, List.cons_append, List.cons.injEq] at h
    exact absurd (by simp [h.1]) hu
  | x :: u, y :: u', v, v', hu, hu', h => by
    simp only [List.cons_append, List.cons.injEq] at h
    obtain ⟨rfl, h⟩ := h
    obtain ⟨rfl, rfl⟩ := split_at (fun hh => hu (by simp [hh])) (fun hh => hu' (by simp [hh])) h
    exact ⟨rfl, rfl⟩

theorem bracket_not_digit {i : Nat} : ']' ∉ digits i := fun h => absurd (digits_isDigit h) (by decide)
theorem dot_not_digit {i : Nat} : '.' ∉ digits i := fun h => absurd (digits_isDigit h) (by decide)

theorem suffixes_nodup (ds : List Nat) : (suffixes ds).Nodup := by
  induction ds with
  | nil => simp [suffixes]
  | cons d ds ih =>
    rw [suffixes, List.nodup_flatMap]
    refine ⟨fun i _ => ?_, ?_⟩
    · refine ih.map ?_
      intro r r' h
      simp only [List.cons_append, List.cons.injEq, true_and, List.append_cancel_left_eq] at h
      exact h
    · refine (List.nodup_range (n := d)).imp ?_
      intro i j hij s hs hs'
      obtain ⟨r, _, rfl⟩ := List.mem_map.1 hs
      obtain ⟨r', _, h⟩ := List.mem_map.1 hs'
      simp only [List.cons_append, List.cons.injEq, true_and] at h
      exact hij (digits_inj (split_at bracket_not_digit bracket_not_digit h).1).symm

theorem suffixes_dot (ds : List Nat) : ∀ r ∈ suffixes ds, '.' ∉ r := by
  induction ds with
  | nil => simp [suffixes]
  | cons d ds ih =>
    intro r hr
    rw [suffixes, List.mem_flatMap] at hr
    obtain ⟨i, _, hr⟩ := hr
    obtain ⟨r', hr', rfl⟩ := List.mem_map.1 hr
    simp [dot_not_digit, ih r' hr']

/-- What may follow an identifier in a name. -/
def Rest (r : Name) : Prop := r = [] ∨ ∃ c r', r = c :: r' ∧ isSep c = true

theorem suffixes_rest (ds : List Nat) : ∀ r ∈ suffixes ds, Rest r := by
  cases ds with
  | nil => simp [suffixes, Rest]
  | cons d ds =>
    intro r hr
    rw [suffixes, List.mem_flatMap] at hr
    obtain ⟨i, _, hr⟩ := hr
    obtain ⟨r', hr', rfl⟩ := List.mem_map.1 hr
    exact Or.inr ⟨'[', _, rfl, by decide⟩

theorem suffixes_length (ds : List Nat) (k : Nat) : ds.foldl (· * ·) k = (suffixes ds).length * k := by
  induction ds generalizing k with
  | nil => simp [suffixes]
  | cons d ds ih =>
    have hlen : (suffixes (d :: ds)).length = d * (suffixes ds).length := by
      rw [suffixes, List.length_flatMap]
      simp
    rw [List.foldl_cons, ih, hlen]
    ring

theorem names_length (w : Wires) (pre : Name) : (w.names pre).length = w.size := by
  induction w generalizing pre with
  | nil => rfl
  | signal n ds rest ih => simp [Wires.names, Wires.size, ih, arrayNames_eq, suffixes_length]
  | bus n ds f rest ihf ih =>
    simp only [Wires.names, Wires.size, List.length_append, ih, arrayNames_eq, suffixes_length, List.length_flatMap, List.map_map]
    congr 1
    have : ((suffixes ds).map ((fun b => (f.names (b ++ ['.'])).length) ∘ fun x => pre ++ n ++ x)) = (suffixes ds).map fun _ => f.size := by
      apply List.map_congr_left
      intro r _
      simp [ihf]
    rw [this]
    simp

theorem base_append {id r : Name} (hi : id.all (fun c => !isSep c) = true) (hr : Rest r) : base (id ++ r) = id := by
  unfold base
  rw [List.takeWhile_append_of_pos (by simpa using hi)]
  rcases hr with rfl | ⟨c, r', rfl, hc⟩
  · simp
  · simp [hc]

theorem Rest.append_sep {r : Name} (h : Rest r) {c : Char} (hc : isSep c = true) (x : Name) : Rest (r ++ c :: x) := by
  rcases h with rfl | ⟨c', r', rfl, h'⟩
  · exact Or.inr ⟨c, x, rfl, hc⟩
  · exact Or.inr ⟨c', _, rfl, h'⟩

/-- Every name of a list of wires starts with the identifier of one of the wires. -/
theorem names_base (w : Wires) (hw : w.Proper) (pre s : Name) (hs : s ∈ w.names pre) :
    ∃ id ∈ w.ids, ∃ r, s = pre ++ (id ++ r) ∧ Rest r ∧ Plain id := by
  induction w generalizing s with
  | nil => simp [Wires.names] at hs
  | signal n ds rest ih =>
    rw [Wires.names, List.mem_append] at hs
    rcases hs with hs | hs
    · rw [arrayNames_eq] at hs
      obtain ⟨r, hr, rfl⟩ := List.mem_map.1 hs
      exact ⟨n, by simp [Wires.ids], r, by simp, suffixes_rest ds r hr, hw.1⟩
    · obtain ⟨id, h1, h2⟩ := ih hw.2 s hs
      exact ⟨id, by simp [Wires.ids, h1], h2⟩
  | bus n ds f rest ihf ih =>
    rw [Wires.names, List.mem_append] at hs
    rcases hs with hs | hs
    · rw [List.mem_flatMap] at hs
      obtain ⟨b, hb, hs⟩ := hs
      rw [arrayNames_eq] at hb
      obtain ⟨r, hr, rfl⟩ := List.mem_map.1 hb
      have hpre : ∃ x, s = (pre ++ n ++ r) ++ '.' :: x := by
        have : ∀ (w : Wires) (q : Name) (s : Name), s ∈ w.names q → ∃ x, s = q ++ x := by
          intro w
          induction w with
          | nil => intro q s h; simp [Wires.names] at h
          | signal n ds rest ih =>
            intro q s h
            rw [Wires.names, List.mem_append] at h
            rcases h with h | h
            · rw [arrayNames_eq] at h
              obtain ⟨r, hr, rfl⟩ := List.mem_map.1 h
              exact ⟨n ++ r, by simp⟩
            · exact ih q s h
          | bus n ds f rest ihf ih =>
            intro q s h
            rw [Wires.names, List.mem_append] at h
            rcases h with h | h
            · rw [List.mem_flatMap] at h
              obtain ⟨b, hb, h⟩ := h
              rw [arrayNames_eq] at hb
              obtain ⟨r, hr, rfl⟩ := List.mem_map.1 hb
              obtain ⟨x, rfl⟩ := ihf _ s h
              exact ⟨n ++ r ++ '.' :: x, by simp⟩
            · exact ih q s h
        obtain ⟨x, rfl⟩ := this f _ s hs
        exact ⟨x, by simp⟩
      obtain ⟨x, rfl⟩ := hpre
      exact ⟨n, by simp [Wires.ids], r ++ '.' :: x, by simp, (suffixes_rest ds r hr).append_sep (by decide) x, hw.1⟩
    · obtain ⟨id, h1, h2⟩ := ih hw.2.2.2 s hs
      exact ⟨id, by simp [Wires.ids, h1], h2⟩

theorem names_nodup (w : Wires) (hw : w.Proper) (hi : w.ids.Nodup) (pre : Name) : (w.names pre).Nodup := by
  induction w generalizing pre with
  | nil => simp [Wires.names]
  | signal n ds rest ih =>
    rw [Wires.ids, List.nodup_cons] at hi
    rw [Wires.names, List.nodup_append']
    refine ⟨?_, ih hw.2 hi.2 pre, ?_⟩
    · rw [arrayNames_eq]
      exact (suffixes_nodup ds).map fun a b h => by simpa using h
    · intro s hs hs'
      rw [arrayNames_eq] at hs
      obtain ⟨r, hr, rfl⟩ := List.mem_map.1 hs
      obtain ⟨id, h1, r', h2, h3, h4⟩ := names_base rest hw.2 pre _ hs'
      rw [List.append_assoc, List.append_cancel_left_eq] at h2
      have e1 := base_append hw.1.2 (suffixes_rest ds r hr)
      rw [h2, base_append h4.2 h3] at e1
      exact hi.1 (e1 ▸ h1)
  | bus n ds f rest ihf ih =>
    rw [Wires.ids, List.nodup_cons] at hi
    rw [Wires.names, List.nodup_append']
    refine ⟨?_, ih hw.2.2.2 hi.2 pre, ?_⟩
    · rw [List.nodup_flatMap]
      refine ⟨fun b _ => ihf hw.2.1 hw.2.2.1 _, ?_⟩
      rw [arrayNames_eq, List.pairwise_map]
      refine List.Pairwise.imp_of_mem ?_ (suffixes_nodup ds)
      intro r r' hr hr' hne s hs hs'
      obtain ⟨id, _, x, h1, _⟩ := names_base f hw.2.1 _ s hs
      obtain ⟨id', _, x', h2, _⟩ := names_base f hw.2.1 _ s hs'
      rw [h1] at h2
      simp only [List.append_assoc, List.append_cancel_left_eq, List.singleton_append] at h2
      exact hne (split_at (suffixes_dot ds r hr) (suffixes_dot ds r' hr') h2).1
    · intro s hs hs'
      have hs0 : s ∈ (Wires.bus n ds f .nil).names pre := by simpa [Wires.names] using hs
      obtain ⟨id, h1, r, h2, h3, h4⟩ := names_base (.bus n ds f .nil) ⟨hw.1, hw.2.1, hw.2.2.1, trivial⟩ pre s hs0
      simp only [Wires.ids, List.mem_singleton] at h1
      subst h1
      obtain ⟨id', g1, r', g2, g3, g4⟩ := names_base rest hw.2.2.2 pre s hs'
      rw [h2, List.append_cancel_left_eq] at g2
      have e1 := base_append h4.2 h3
      rw [g2, base_append g4.2 g3] at e1
      exact hi.1 (e1 ▸ g1)

/-! ## Programs with proper names -/

/-- Spec: the identifiers of a program are used properly: subcomponents are earlier templates; in each template wires have different
identifiers, subcomponents have different labels without dots, and no wire shares its identifier with a component. -/
structure WellNamed (ts : List Template) : Prop where
  order : Ordered ts
  proper : ∀ t ∈ ts, t.wires.Proper
  ids : ∀ t ∈ ts, t.wires.ids.Nodup
  labels : ∀ t ∈ ts, (t.connexions.map Prod.fst).Nodup
  label : ∀ t ∈ ts, ∀ c ∈ t.connexions, '.' ∉ c.1 ∧ base c.1 ∉ t.wires.ids

theorem base_local {t : Template} (hp : t.wires.Proper) {s : Name} (hs : s ∈ locNames t) : base s ∈ t.wires.ids := by
  rw [locNames_eq] at hs
  obtain ⟨id, h1, r, h2, h3, h4⟩ := names_base _ hp [] s hs
  rw [List.nil_append] at h2
  rw [h2, base_append h4.2 h3]
  exact h1

theorem base_child (l x : Name) : base (l ++ '.' :: x) = base l := by
  unfold base
  induction l with
  | nil => simp [isSep]
  | cons c l ih =>
    rw [List.cons_append, List.takeWhile_cons, List.takeWhile_cons, ih]

theorem layout_labels (sz : Nat → Nat) (o : Nat) (cs : List (Name × Nat)) : (layout sz o cs).map Prod.fst = cs.map Prod.fst := by
  induction cs generalizing o with
  | nil => rfl
  | cons c cs ih => simp [layout, ih]

theorem childNames_fst (nm : Nat → List Name) (k : Name × Nat × Nat) :
    (childNames nm k).map Prod.fst = (nm k.2.1).map fun x => k.1 ++ '.' :: x := by
  unfold childNames
  rw [List.map_map]
  conv_rhs => rw [← map_fst_zipIdx (nm k.2.1) (k.2.2 + 1), List.map_map]
  rfl

theorem namesAt_nodup {ts : List Template} (h : WellNamed ts) (i : Nat) : (namesAt ts i).Nodup := by
  cases ht : ts[i]? with
  | none => simp [namesAt, ht]
  | some t =>
    rw [namesAt_eq ht, locNames_eq]
    exact names_nodup _ (h.proper t (List.mem_of_getElem? ht)) (h.ids t (List.mem_of_getElem? ht)) []

/-- Names below the subcomponents of a template, for any choice `nm` of distinct names per template, do not clash. -/
theorem qualified_nodup {ts : List Template} (h : WellNamed ts) {t : Template} (ht : t ∈ ts) (nm : Nat → List Name)
    (hnm : ∀ c ∈ t.connexions, (nm c.2).Nodup) :
    (locNames t ++ (kids ts t).flatMap fun k => (nm k.2.1).map fun x => k.1 ++ '.' :: x).Nodup := by
  rw [List.nodup_append']
  refine ⟨?_, ?_, ?_⟩
  · rw [locNames_eq]
    exact names_nodup _ (h.proper t ht) (h.ids t ht) []
  · rw [List.nodup_flatMap]
    refine ⟨fun k hk => (hnm _ (layout_target hk)).map fun a b hab => by simpa using hab, ?_⟩
    have hl : ((kids ts t).map Prod.fst).Nodup := by
      unfold kids
      rw [layout_labels]
      exact h.labels t ht
    refine List.Pairwise.imp_of_mem ?_ (List.pairwise_map.1 hl)
    intro k k' hk hk' hne s hs hs'
    obtain ⟨x, _, rfl⟩ := List.mem_map.1 hs
    obtain ⟨x', _, hx⟩ := List.mem_map.1 hs'
    exact hne (split_at (h.label t ht _ (layout_target hk)).1 (h.label t ht _ (layout_target hk')).1 hx.symm).1
  · intro s hs hs'
    rw [List.mem_flatMap] at hs'
    obtain ⟨k, hk, hs'⟩ := hs'
    obtain ⟨x, _, rfl⟩ := List.mem_map.1 hs'
    have := base_local (h.proper t ht) hs
    rw [base_child] at this
    exact (h.label t ht _ (layout_target hk)).2 this

theorem table_keys (ts : List Template) (t : Template) : (table ts t).map Prod.fst =
    locNames t ++ (kids ts t).flatMap fun k => (namesAt ts k.2.1).map fun x => k.1 ++ '.' :: x := by
  unfold table
  rw [List.map_append, map_fst_zipIdx, List.map_flatMap]
  simp only [childNames_fst]

theorem table_fresh {ts : List Template} (h : WellNamed ts) : ∀ t ∈ ts, ((table ts t).map Prod.fst).Nodup := by
  intro t ht
  rw [table_keys]
  exact qualified_nodup h ht _ fun c _ => namesAt_nodup h c.2

/-- Names of all signals below an instance of template `i`, relative to it. -/
def below (ts : List Template) : Nat → Nat → List Name
  | 0, _ => []
  | f + 1, i => namesAt ts i ++ (kidsAt ts i).flatMap fun k => (below ts f k.2.1).map fun x => k.1 ++ '.' :: x

theorem below_nodup {ts : List Template} (h : WellNamed ts) (fuel : Nat) : ∀ i, (below ts fuel i).Nodup := by
  induction fuel with
  | zero => intro i; simp [below]
  | succ fuel ih =>
    intro i
    unfold below
    cases ht : ts[i]? with
    | none => simp [namesAt, kidsAt, ht]
    | some t =>
      rw [namesAt_eq ht, kidsAt_eq ht]
      exact qualified_nodup h (List.mem_of_getElem? ht) _ fun c _ => ih c.2

theorem instances_names (ts : List Template) (fuel : Nat) : ∀ (i o : Nat) (path : Name),
    (instances ts fuel i o path).flatMap (fun y => (namesAt ts y.1).map fun x => y.2.2 ++ '.' :: x) =
      (below ts fuel i).map fun x => path ++ '.' :: x := by
  induction fuel with
  | zero => intro i o path; rfl
  | succ fuel ih =>
    intro i o path
    unfold instances below
    rw [List.flatMap_cons, List.flatMap_assoc, List.map_append, List.map_flatMap]
    congr 1
    congr 1
    funext k
    rw [ih, List.map_map]
    apply List.map_congr_left
    intro x _
    simp

/-! ## Numbers of a template's table -/

theorem noLoc_le_size {ts : List Template} (ho : Ordered ts) (i : Nat) : (namesAt ts i).length ≤ size ts i := by
  cases ht : ts[i]? with
  | none => simp [namesAt, ht]
  | some t =>
    rw [namesAt_eq ht, size_eq ho ht]
    show noLoc t ≤ _
    omega

theorem layout_values {sz len : Nat → Nat} (hl : ∀ j, len j ≤ sz j) (cs : List (Name × Nat)) (o : Nat) :
    (∀ v ∈ (layout sz o cs).flatMap (fun k => List.range' (k.2.2 + 1) (len k.2.1)), o < v ∧ v ≤ o + (cs.map fun c => sz c.2).sum) ∧
    ((layout sz o cs).flatMap fun k => List.range' (k.2.2 + 1) (len k.2.1)).Nodup := by
  induction cs generalizing o with
  | nil => simp [layout]
  | cons c cs ih =>
    obtain ⟨h1, h2⟩ := ih (o + sz c.2)
    have hc := hl c.2
    simp only [layout, List.flatMap_cons, List.map_cons, List.sum_cons]
    refine ⟨fun v hv => ?_, ?_⟩
    · rcases List.mem_append.1 hv with hv | hv
      · rw [List.mem_range'_1] at hv
        omega
      · have := h1 v hv
        omega
    · rw [List.nodup_append']
      refine ⟨List.nodup_range', h2, fun v hv hv' => ?_⟩
      rw [List.mem_range'_1] at hv
      have := h1 v hv'
      omega

theorem childNames_snd (nm : Nat → List Name) (k : Name × Nat × Nat) :
    (childNames nm k).map Prod.snd = List.range' (k.2.2 + 1) (nm k.2.1).length := by
  unfold childNames
  rw [List.map_map, ← map_snd_zipIdx]
  rfl

theorem table_values {ts : List Template} (ho : Ordered ts) {i : Nat} {t : Template} (ht : ts[i]? = some t) :
    (∀ v ∈ (table ts t).map Prod.snd, 0 < v ∧ v ≤ size ts i) ∧ ((table ts t).map Prod.snd).Nodup := by
  have hv := layout_values (sz := size ts) (len := fun j => (namesAt ts j).length) (noLoc_le_size ho) t.connexions (noLoc t)
  have hs := size_eq ho ht
  have heq : (table ts t).map Prod.snd = List.range' 1 (noLoc t) ++
      (layout (size ts) (noLoc t) t.connexions).flatMap fun k => List.range' (k.2.2 + 1) (namesAt ts k.2.1).length := by
    unfold table
    rw [List.map_append, map_snd_zipIdx, List.map_flatMap]
    simp only [childNames_snd]
    rfl
  rw [heq]
  refine ⟨fun v h => ?_, ?_⟩
  · rcases List.mem_append.1 h with h | h
    · rw [List.mem_range'_1] at h; omega
    · have := hv.1 v h; omega
  · rw [List.nodup_append']
    refine ⟨List.nodup_range', hv.2, fun v h h' => ?_⟩
    rw [List.mem_range'_1] at h
    have := hv.1 v h'
    omega

end Verif.Dag
