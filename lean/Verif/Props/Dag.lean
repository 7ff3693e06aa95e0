import Verif.PlaceLemmas

/-! # C34, C35, C36, C57, C58: numbering of signals and flattening of the component tree -/

set_option linter.unusedSectionVars false
set_option linter.unusedSimpArgs false

namespace Verif.Props.Dag
open Verif.ModArith (Res Fail)
open Verif.Algebra
open Verif.Dag
open Verif.Props.Algebra (ok_bind)
open Verif.Props.Simplification (original Sat)

variable {p : Nat}

/-! ## Spec -/

/-- The name of the main component. -/
def mainPath : Name := ['m', 'a', 'i', 'n']

/-- The component instances of a program in depth-first order, as pairs of template and path. -/
def components (ts : List Template) : Nat → Nat → Name → List (Template × Name)
  | 0, _, _ => []
  | f + 1, i, path =>
    match ts[i]? with
    | none => []
    | some t => (t, path) :: t.connexions.flatMap fun c => components ts f c.2 (path ++ '.' :: c.1)

/-- All component instances; the last template is the main one. -/
def allComponents (ts : List Template) : List (Template × Name) := components ts ts.length (ts.length - 1) mainPath

/-- The names of a template's own signals in the documented order. -/
def ownNames (t : Template) : List Name :=
  t.outputs.names [] ++ t.publicInputs.names [] ++ t.privateInputs.names [] ++ t.intermediates.names []

/-- The qualified names of all signals, component by component. -/
def qualified (cs : List (Template × Name)) : List Name := cs.flatMap fun c => (ownNames c.1).map fun s => c.2 ++ '.' :: s

/-- The number a symbol file gives to a name; 0 for the constant. -/
def symNumber (lines : List SymElem) (name : Name) : Nat :=
  match lines.find? fun l => l.symbol = name with
  | some l => l.original.toNat
  | none => 0

/-- The signal a component means by a name. -/
def meaning (lines : List SymElem) (path s : Name) : Nat := if s = [] then 0 else symNumber lines (path ++ '.' :: s)

/-- The constraints of a component without zero coefficients and trivial constraints, over the numbers of the symbol file. -/
def contribution (lines : List SymElem) (c : Template × Name) : List C :=
  ((c.1.constraints.map Constraint.removeZeros).filter fun k => !k.isEmpty).map (rename (meaning lines c.2))

/-! ## Decidable side conditions for the examples -/

theorem ordered_iff (ts : List Template) : Ordered ts ↔ ∀ e ∈ ts.zipIdx, ∀ c ∈ e.1.connexions, c.2 < e.2 := by
  constructor
  · intro h e he c hc
    rw [List.mem_zipIdx_iff_getElem?] at he
    exact h e.2 e.1 he c hc
  · intro h i t ht c hc
    exact h (t, i) (by rw [List.mem_zipIdx_iff_getElem?]; exact ht) c hc

instance (ts : List Template) : Decidable (Ordered ts) := decidable_of_iff _ (ordered_iff ts).symm

instance (ts : List Template) : Decidable (WellNamed ts) :=
  decidable_of_iff (Ordered ts ∧ (∀ t ∈ ts, t.wires.Proper) ∧ (∀ t ∈ ts, t.wires.ids.Nodup) ∧ (∀ t ∈ ts, (t.connexions.map Prod.fst).Nodup) ∧
    ∀ t ∈ ts, ∀ c ∈ t.connexions, '.' ∉ c.1 ∧ base c.1 ∉ t.wires.ids)
    ⟨fun h => ⟨h.1, h.2.1, h.2.2.1, h.2.2.2.1, h.2.2.2.2⟩, fun h => ⟨h.order, h.proper, h.ids, h.labels, h.label⟩⟩

instance (ts : List Template) (t : Template) (s : Name) : Decidable (Known ts t s) := by unfold Known; infer_instance

instance (ts : List Template) (t : Template) (c : Constraint Name) : Decidable (GoodConstraint p ts t c) :=
  decidable_of_iff (((c.a.map Prod.fst).Nodup ∧ (c.b.map Prod.fst).Nodup ∧ (c.c.map Prod.fst).Nodup) ∧
    (∀ e ∈ terms c, e.1 = [] ∨ Known ts t e.1) ∧ ∀ e ∈ terms c, 0 ≤ e.2 ∧ e.2 < p)
    ⟨fun h => ⟨h.1, h.2.1, h.2.2⟩, fun h => ⟨h.nodup, h.known, h.range⟩⟩

instance (ts : List Template) : Decidable (Program p ts) :=
  decidable_of_iff (WellNamed ts ∧ ts ≠ [] ∧ (∀ t ∈ ts, ∀ c ∈ t.constraints, GoodConstraint p ts t c) ∧
    ∀ t ∈ ts, ∀ s ∈ t.ordered, s ∈ locNames t)
    ⟨fun h => ⟨h.1, h.2.1, h.2.2.1, h.2.2.2⟩, fun h => ⟨h.named, h.nonempty, h.constraints, h.ordered⟩⟩

/-! ## A program used in the examples -/

def nm (s : String) : Name := s.toList

/-- One scalar or array signal. -/
def sig (n : String) (ds : List Nat := []) (rest : Wires := .nil) : Wires := .signal (nm n) ds rest

/-- `template Sub(n) { signal input a[2]; signal output o; B() b[2]; o <== a[0]*a[1]; b[1].x === a[0]; }` with
`bus B() { signal x; signal y[2]; }`. -/
def sub : Template where
  name := nm "Sub(2)"
  parameters := [2]
  isCustomGate := false
  outputs := sig "o"
  publicInputs := .nil
  privateInputs := sig "a" [2]
  intermediates := .bus (nm "b") [2] (sig "x" [] (sig "y" [2])) .nil
  ordered := []
  connexions := []
  constraints := [⟨[(nm "a[0]", 1)], [(nm "a[1]", 1)], [(nm "o", 1)]⟩, ⟨[], [], [(nm "b[1].x", 12), (nm "a[0]", 1), ([], 0)]⟩]

/-- A custom gate with one input and one output. -/
def gate : Template where
  name := nm "G()"
  parameters := []
  isCustomGate := true
  outputs := sig "q"
  publicInputs := .nil
  privateInputs := sig "r"
  intermediates := .nil
  ordered := [nm "r", nm "q"]
  connexions := []
  constraints := []

/-- The main component, with three subcomponents. -/
def root : Template where
  name := nm "Main()"
  parameters := []
  isCustomGate := false
  outputs := sig "out"
  publicInputs := sig "in" [2]
  privateInputs := sig "k"
  intermediates := sig "t"
  ordered := []
  connexions := [(nm "g", 1), (nm "s[0]", 0), (nm "s[1]", 0)]
  constraints := [⟨[], [], [(nm "s[0].a[0]", 12), (nm "in[0]", 1)]⟩, ⟨[], [], [(nm "s[0].a[1]", 1), ([], 10)]⟩,
    ⟨[], [], [(nm "s[1].a[0]", 12), (nm "s[0].o", 2), (nm "k", 3)]⟩, ⟨[], [], [(nm "g.r", 12), (nm "s[1].a[1]", 1)]⟩,
    ⟨[(nm "g.q", 1)], [(nm "s[1].o", 1), (nm "t", 5)], [(nm "out", 1)]⟩, ⟨[], [], [(nm "t", 0)]⟩]

def demo : List Template := [sub, gate, root]

theorem demo_program : Program 13 demo := by decide +kernel

/-! ## Components and instances -/

theorem kidsAt_flatMap {ts : List Template} {i : Nat} {t : Template} (ht : ts[i]? = some t) {β : Type} (f : Name → Nat → List β) :
    (kidsAt ts i).flatMap (fun k => f k.1 k.2.1) = t.connexions.flatMap fun c => f c.1 c.2 := by
  rw [kidsAt_eq ht]
  unfold kids
  generalize noLoc t = a
  generalize t.connexions = cs
  induction cs generalizing a with
  | nil => rfl
  | cons c cs ih => simp [layout, ih]

theorem components_eq (ts : List Template) (fuel : Nat) : ∀ (i o : Nat) (path : Name), i < ts.length → Ordered ts →
    (instances ts fuel i o path).filterMap (fun y => ts[y.1]?.map fun t => (t, y.2.2)) = components ts fuel i path := by
  induction fuel with
  | zero => intro i o path _ _; rfl
  | succ fuel ih =>
    intro i o path hi ho
    have ht : ts[i]? = some ts[i] := List.getElem?_eq_getElem hi
    unfold instances components
    rw [ht, List.filterMap_cons]
    simp only [ht, Option.map_some]
    congr 1
    rw [List.filterMap_flatMap, ← kidsAt_flatMap ht fun n j => components ts fuel j (path ++ '.' :: n)]
    refine List.flatMap_congr fun k hk => ?_
    rw [kidsAt_eq ht] at hk
    have := ho i _ ht _ (layout_target hk)
    simp only at this
    exact ih _ _ _ (by omega) ho

theorem allComponents_eq {ts : List Template} (ho : Ordered ts) (hne : ts ≠ []) :
    (allInstances ts).filterMap (fun y => ts[y.1]?.map fun t => (t, y.2.2)) = allComponents ts := by
  have := List.length_pos_of_ne_nil hne
  exact components_eq ts _ _ _ _ (by omega) ho

theorem flatMap_components {ts : List Template} (l : List (Nat × Nat × Name)) (h : ∀ y ∈ l, y.1 < ts.length) {β : Type}
    (f : Template → Name → List β) (g : Nat × Nat × Name → List β) (hfg : ∀ y ∈ l, ∀ t, ts[y.1]? = some t → g y = f t y.2.2) :
    l.flatMap g = (l.filterMap fun y => ts[y.1]?.map fun t => (t, y.2.2)).flatMap fun c => f c.1 c.2 := by
  induction l with
  | nil => rfl
  | cons y l ih =>
    have ht : ts[y.1]? = some (ts[y.1]'(h y (by simp))) := List.getElem?_eq_getElem _
    rw [List.filterMap_cons]
    simp only [ht, Option.map_some, List.flatMap_cons]
    rw [ih (fun y hy => h y (by simp [hy])) fun y hy => hfg y (by simp [hy]), hfg y (by simp) _ ht]

theorem ownNames_eq (t : Template) : ownNames t = locNames t := by
  unfold ownNames locNames
  simp

/-! ## C34 -/

/-- The symbol lines of a well-named program: numbers and names. -/
theorem sym_spec {ts : List Template} (h : WellNamed ts) (hne : ts ≠ []) :
    ((allInstances ts).flatMap (symLines ts)).map SymElem.original =
      (List.range' 1 (qualified (allComponents ts)).length).map (fun n : Nat => (n : Int)) ∧
    ((allInstances ts).flatMap (symLines ts)).map SymElem.symbol = qualified (allComponents ts) ∧
    (qualified (allComponents ts)).Nodup := by
  have hsym : ((allInstances ts).flatMap (symLines ts)).map SymElem.symbol = qualified (allComponents ts) := by
    rw [symLines_symbol, qualified, ← allComponents_eq h.order hne]
    refine flatMap_components _ (allInstances_template h.order hne) (fun t n => (ownNames t).map fun s => n ++ '.' :: s) _ ?_
    intro y _ t ht
    rw [namesAt_eq ht, ownNames_eq]
  have hlen : (qualified (allComponents ts)).length = size ts (ts.length - 1) := by
    rw [← hsym, List.length_map]
    have := congrArg List.length (symLines_original ts (allInstances ts))
    rw [allInstances_signals h.order hne] at this
    simpa using this
  refine ⟨?_, hsym, ?_⟩
  · rw [symLines_original, allInstances_signals h.order hne, hlen]
  · rw [← hsym, symLines_symbol, allInstances, instances_names]
    refine (below_nodup h _ _).map fun a b hab => ?_
    simpa using hab

/-- C34: the construction never aborts; the symbol file lists the qualified names of the component tree in the documented order (per
component outputs, public inputs, private inputs, intermediates, then the subcomponents) with the numbers `1..n`, and no name occurs
twice.  Missing: templates declaring two signals with the same name in different blocks (`C34_violated`). -/
theorem C34_numbering_partial {ts : List Template} (h : Program p ts) :
    ∃ d lines, buildDag ts = .ok d ∧ dagSym d = .ok lines ∧
      lines.map SymElem.original = (List.range' 1 (qualified (allComponents ts)).length).map (fun n : Nat => (n : Int)) ∧
      lines.map SymElem.symbol = qualified (allComponents ts) ∧ (qualified (allComponents ts)).Nodup := by
  obtain ⟨d, h1, hb⟩ := buildDag_spec h.resolves
  exact ⟨d, _, h1, dagSym_eq h.named.order hb h.nonempty, sym_spec h.named h.nonempty⟩

example : ∃ d lines, buildDag demo = .ok d ∧ dagSym d = .ok lines ∧ lines.length = 25 ∧
    lines[0]? = some ⟨1, 1, 2, nm "main.out"⟩ ∧ lines[6]? = some ⟨7, 7, 1, nm "main.g.r"⟩ ∧ lines[24]? = some ⟨25, 25, 0, nm "main.s[1].b[1].y[1]"⟩ := by
  refine ⟨_, _, rfl, rfl, ?_⟩
  decide +kernel

theorem qualified_sub {ts : List Template} (ho : Ordered ts) (fuel i o : Nat) (path : Name) (hi : i < ts.length) :
    ((instances ts fuel i o path).flatMap (symLines ts)).map SymElem.symbol = qualified (components ts fuel i path) := by
  rw [symLines_symbol, qualified, ← components_eq ts fuel i o path hi ho]
  refine flatMap_components _ (fun y hy => ?_) (fun t n => (ownNames t).map fun s => n ++ '.' :: s) _ ?_
  · exact instances_template ho fuel i o path hi y hy
  · intro y _ t ht
    rw [namesAt_eq ht, ownNames_eq]

/-- C34, contiguity: the signals of a component together with those of its subcomponents are consecutive lines.  Missing as above. -/
theorem C34_contiguous_partial {ts : List Template} (h : Program p ts) :
    ∃ d lines, buildDag ts = .ok d ∧ dagSym d = .ok lines ∧
      ∀ c ∈ allComponents ts, ∃ i start, ts[i]? = some c.1 ∧
        let inside := components ts ts.length i c.2
        ((lines.drop start).take (qualified inside).length).map SymElem.symbol = qualified inside := by
  obtain ⟨d, h1, hb⟩ := buildDag_spec h.resolves
  have ho := h.named.order
  have hne := h.nonempty
  have hlen := List.length_pos_of_ne_nil hne
  refine ⟨d, _, h1, dagSym_eq ho hb hne, fun c hc => ?_⟩
  rw [← allComponents_eq ho hne, List.mem_filterMap] at hc
  obtain ⟨y, hy, hyc⟩ := hc
  rw [Option.map_eq_some_iff] at hyc
  obtain ⟨t, ht, rfl⟩ := hyc
  have hyt := (List.getElem?_eq_some_iff.1 ht).1
  have hblock := block ho ts.length (ts.length - 1) 0 mainPath (by omega) (by omega) y hy
  have hq := qualified_sub ho ts.length y.1 y.2.1 y.2.2 hyt
  have hql : (qualified (components ts ts.length y.1 y.2.2)).length = size ts y.1 := by
    rw [← hq, List.length_map]
    have h1 := symLines_original ts (instances ts ts.length y.1 y.2.1 y.2.2)
    rw [instances_signals ho ts.length y.1 y.2.1 y.2.2 _ (List.getElem?_eq_getElem hyt) hyt] at h1
    have := congrArg List.length h1
    simpa using this
  refine ⟨y.1, y.2.1, ht, ?_⟩
  simp only
  rw [hql, ← hq, ← hblock]
  rfl

example : (allComponents demo).map (fun c => (c.2, (ownNames c.1).length)) =
    [(nm "main", 5), (nm "main.g", 2), (nm "main.s[0]", 9), (nm "main.s[1]", 9)] := by decide +kernel

/-- Two signals of one template may have the same name: circom accepts declarations of the same signal name in different blocks. -/
def twice : Template where
  name := nm "T()"
  parameters := []
  isCustomGate := false
  outputs := sig "o"
  publicInputs := .nil
  privateInputs := .nil
  intermediates := sig "x" [] (sig "x")
  ordered := []
  connexions := []
  constraints := [⟨[], [], [(nm "x", 12), ([], 3)]⟩, ⟨[], [], [(nm "x", 12), ([], 4)]⟩]

/-- C34 and C36 are false without distinct names: signal 2 is counted but has no name, no symbol line and no place in the witness list,
and the constraints of both signals called `x` are about signal 3. -/
theorem C34_violated : ∃ d, buildDag [twice] = .ok d ∧
    (∃ lines, dagSym d = .ok lines ∧ lines.map SymElem.original = [1, 3]) ∧ (dagStats d).signals = [3] ∧
    produceWitness d = .ok [0, 1, 3] ∧
    (∃ cs, constraintSection d = .ok (cs, 2) ∧ cs.map (fun c => (c.a, c.b, c.c)) = [([], [], [(3, 12), (0, 3)]), ([], [], [(3, 12), (0, 4)])]) := by
  refine ⟨_, rfl, ⟨_, rfl, ?_⟩, ?_, ?_, ⟨_, rfl, ?_⟩⟩
  · decide +kernel
  · decide +kernel
  · decide +kernel
  · decide +kernel

/-! ## C36 -/

/-- C36: without simplification the witness list is `0, 1, …, n`, with `n` the number of signals of the component tree.
Missing: as for C34. -/
theorem C36_witness_partial {ts : List Template} (h : Program p ts) :
    ∃ d, buildDag ts = .ok d ∧ produceWitness d = .ok (List.range ((qualified (allComponents ts)).length + 1)) := by
  obtain ⟨d, h1, hb⟩ := buildDag_spec h.resolves
  refine ⟨d, h1, ?_⟩
  rw [produceWitness_eq h.named.order hb h.nonempty]
  have := congrArg List.length (sym_spec h.named h.nonempty).2.1
  rw [← this, List.length_map]
  have := congrArg List.length (symLines_original ts (allInstances ts))
  rw [allInstances_signals h.named.order h.nonempty] at this
  rw [show (List.flatMap (symLines ts) (allInstances ts)).length = size ts (ts.length - 1) by simpa using this]

example : ∃ d, buildDag demo = .ok d ∧ produceWitness d = .ok (List.range 26) := ⟨_, rfl, by decide +kernel⟩

/-! ## C35 -/

theorem find_symbol {lines : List SymElem} (hn : (lines.map SymElem.symbol).Nodup) {l : SymElem} (hl : l ∈ lines) :
    lines.find? (fun l' => l'.symbol = l.symbol) = some l := by
  induction lines with
  | nil => cases hl
  | cons x xs ih =>
    rw [List.map_cons, List.nodup_cons] at hn
    rcases List.mem_cons.1 hl with rfl | hl
    · simp
    · have hx : x.symbol ≠ l.symbol := fun h => hn.1 (h ▸ List.mem_map_of_mem hl)
      rw [List.find?_cons_of_neg (by simpa using hx)]
      exact ih hn.2 hl

theorem meaning_eq {ts : List Template} (h : WellNamed ts) (hne : ts ≠ []) {y : Nat × Nat × Name} (hy : y ∈ allInstances ts) {t : Template}
    (ht : ts[y.1]? = some t) {s : Name} (hs : s = [] ∨ Known ts t s) :
    meaning ((allInstances ts).flatMap (symLines ts)) y.2.2 s = global ts t y.2.1 s := by
  by_cases hs0 : s = []
  · subst hs0; simp [meaning, global]
  · obtain ⟨l, h1, h2, h3⟩ := sym_global h hne hy ht (hs.resolve_left hs0) hs0
    have hn := (sym_spec h hne).2
    rw [← hn.1] at hn
    unfold meaning symNumber
    rw [if_neg hs0, ← h2, find_symbol hn.2 h1]
    simp [h3]

theorem contribution_eq {ts : List Template} (h : Program p ts) {y : Nat × Nat × Name} (hy : y ∈ allInstances ts) {t : Template}
    (ht : ts[y.1]? = some t) : placed ts t y.2.1 = contribution ((allInstances ts).flatMap (symLines ts)) (t, y.2.2) := by
  unfold placed contribution
  apply List.map_congr_left
  intro c hc
  obtain ⟨c0, hc0, rfl⟩ := List.mem_map.1 (List.mem_filter.1 hc).1
  have hg := h.constraints t (List.mem_of_getElem? ht) c0 hc0
  apply map_occurs
  intro x hx
  rw [meaning_eq h.named h.nonempty hy ht]
  have hocc : c0.Occurs x := by
    rcases hx with hx | hx | hx
    · exact Or.inl (keys_removeZeros_sub hx)
    · exact Or.inr (Or.inl (keys_removeZeros_sub hx))
    · exact Or.inr (Or.inr (keys_removeZeros_sub hx))
  obtain ⟨e, he, rfl⟩ := (occurs_iff c0 x).1 hocc
  exact hg.known e he

theorem allConstraints_eq {ts : List Template} (h : Program p ts) {d : Graph} (hb : Built ts d) :
    allConstraints ts d = (allComponents ts).flatMap (contribution ((allInstances ts).flatMap (symLines ts))) := by
  rw [← allComponents_eq h.named.order h.nonempty]
  refine flatMap_components _ (allInstances_template h.named.order h.nonempty)
    (fun t n => contribution ((allInstances ts).flatMap (symLines ts)) (t, n)) _ ?_
  intro y hy t ht
  rw [shifted_eq h hb ht, contribution_eq h hy ht]

/-- C35: the constraints given to the simplifier are, up to order, exactly the constraints of the component instances: each component's
constraints, without zero coefficients and trivial constraints, once per instance, over the numbers the symbol file gives to its names.
Missing: templates declaring one name twice, as for C34. -/
theorem C35_flatten_partial {ts : List Template} (h : Program p ts) (flags : Flags) :
    ∃ d lines smp enc, buildDag ts = .ok d ∧ dagSym d = .ok lines ∧ mapDag d p flags = .ok (smp, enc) ∧
      (original smp).Perm ((allComponents ts).flatMap (contribution lines)) ∧
      (∀ c ∈ smp.nonLinear, c.isLinear = false) ∧ (∀ c ∈ smp.linear, c.isLinear = true) ∧
      (∀ c ∈ smp.consEqualities, c.isConstantEquality = true) ∧ (∀ c ∈ smp.equalities, c.isEquality p = true) := by
  obtain ⟨d, h1, hb⟩ := buildDag_spec h.resolves
  obtain ⟨smp, enc, h2, hm⟩ := mapDag_eq h.named.order h.orderedKnown h.nonempty hb p flags
  refine ⟨d, _, smp, enc, h1, dagSym_eq h.named.order hb h.nonempty, h2, ?_, ?_, ?_, ?_, ?_⟩
  · rw [← allConstraints_eq h hb]; exact original_perm hm
  · intro c hc; rw [hm.nonLinear] at hc; simpa using (List.mem_filter.1 hc).2
  · intro c hc; rw [hm.linear] at hc
    have := (List.mem_filter.1 hc).2
    simp only [Bool.and_eq_true] at this
    exact this.2.2
  · intro c hc; rw [hm.consts] at hc; exact (List.mem_filter.1 hc).2
  · intro c hc; rw [hm.eqs] at hc
    have := (List.mem_filter.1 hc).2
    simp only [Bool.and_eq_true] at this
    exact this.2

/-- C35 for the file written without simplification: the constraint section lists the same constraints in component order.
Missing: templates declaring one name twice, as for C34. -/
theorem C35_section_partial {ts : List Template} (h : Program p ts) :
    ∃ d lines, buildDag ts = .ok d ∧ dagSym d = .ok lines ∧
      constraintSection d = .ok ((allComponents ts).flatMap (contribution lines), (qualified (allComponents ts)).length) := by
  obtain ⟨d, h1, hb⟩ := buildDag_spec h.resolves
  refine ⟨d, _, h1, dagSym_eq h.named.order hb h.nonempty, ?_⟩
  rw [constraintSection_eq h.named.order hb h.nonempty, ← allConstraints_eq h hb]
  have := congrArg List.length (sym_spec h.named h.nonempty).2.1
  rw [← this, List.length_map]
  have := congrArg List.length (symLines_original ts (allInstances ts))
  rw [allInstances_signals h.named.order h.nonempty] at this
  rw [show (List.flatMap (symLines ts) (allInstances ts)).length = size ts (ts.length - 1) by simpa using this]
  rfl

/-- C35, meaning: an assignment satisfies the flattened constraints exactly when every constraint of every component holds for the
values of the signals it names.
Missing: templates declaring one name twice, as for C34. -/
theorem C35_meaning_partial {ts : List Template} (h : Program p ts) (flags : Flags) :
    ∃ d lines smp enc, buildDag ts = .ok d ∧ dagSym d = .ok lines ∧ mapDag d p flags = .ok (smp, enc) ∧
      ∀ ρ : Nat → ZMod p, Sat (original smp) ρ ↔
        ρ 0 = 1 ∧ ∀ c ∈ allComponents ts, ∀ k ∈ c.1.constraints, k.Holds fun s => ρ (meaning lines c.2 s) := by
  obtain ⟨d, h1, hb⟩ := buildDag_spec h.resolves
  obtain ⟨smp, enc, h2, hm⟩ := mapDag_eq h.named.order h.orderedKnown h.nonempty hb p flags
  refine ⟨d, _, smp, enc, h1, dagSym_eq h.named.order hb h.nonempty, h2, fun ρ => and_congr Iff.rfl ?_⟩
  have hcomp : ∀ (y : Nat × Nat × Name) (t : Template), y ∈ allInstances ts → ts[y.1]? = some t →
      ((∀ c ∈ shifted d y, c.Holds ρ) ↔
        ∀ k ∈ t.constraints, k.Holds fun s => ρ (meaning ((allInstances ts).flatMap (symLines ts)) y.2.2 s)) := by
    intro y t hy ht
    rw [shifted_holds h hb ht ρ]
    refine forall₂_congr fun k hk => ?_
    have hg := h.constraints t (List.mem_of_getElem? ht) k hk
    have : ∀ x, k.Occurs x → ρ (global ts t y.2.1 x) = ρ (meaning ((allInstances ts).flatMap (symLines ts)) y.2.2 x) := by
      intro x hx
      obtain ⟨e, he, rfl⟩ := (occurs_iff k x).1 hx
      rw [meaning_eq h.named h.nonempty hy ht (hg.known e he)]
    unfold Constraint.Holds
    rw [ev_congr _ _ k.a fun s hs => this s (Or.inl hs), ev_congr _ _ k.b fun s hs => this s (Or.inr (Or.inl hs)),
      ev_congr _ _ k.c fun s hs => this s (Or.inr (Or.inr hs))]
  constructor
  · intro hall c hc
    rw [← allComponents_eq h.named.order h.nonempty, List.mem_filterMap] at hc
    obtain ⟨y, hy, hyc⟩ := hc
    rw [Option.map_eq_some_iff] at hyc
    obtain ⟨t, ht, rfl⟩ := hyc
    refine (hcomp y t hy ht).1 fun c hc => hall c ?_
    exact (original_perm hm).mem_iff.2 (List.mem_flatMap.2 ⟨y, hy, hc⟩)
  · intro hall c hc
    obtain ⟨y, hy, hc⟩ := List.mem_flatMap.1 ((original_perm hm).mem_iff.1 hc)
    have ht : ts[y.1]? = some (ts[y.1]'(allInstances_template h.named.order h.nonempty y hy)) := List.getElem?_eq_getElem _
    refine (hcomp y _ hy ht).2 (hall (_, y.2.2) ?_) c hc
    rw [← allComponents_eq h.named.order h.nonempty, List.mem_filterMap]
    exact ⟨y, hy, by rw [ht]; rfl⟩

example : ∃ d smp enc, buildDag demo = .ok d ∧ mapDag d 13 ⟨10, false, false⟩ = .ok (smp, enc) ∧
    smp.consEqualities.length = 1 ∧ smp.equalities.length = 4 ∧ smp.linear.length = 1 ∧ smp.nonLinear.length = 3 ∧
    ⟨[], [], [(18, 12), (8, 2), (4, 3)]⟩ ∈ smp.linear := by
  refine ⟨_, _, _, rfl, rfl, ?_⟩
  decide +kernel

/-! ## C57 -/

/-- C57: the address the witness code computes for an access — start of the declared signal or bus, plus row-major index, plus field
offsets — is the number the template graph gives to the name printed for that access.
Missing: templates declaring one name twice, as for C34. -/
theorem C57_address_partial {ts : List Template} (h : Program p ts) {i : Nat} {t : Template} (ht : ts[i]? = some t) :
    ∃ d n, buildDag ts = .ok d ∧ d.nodes[i]? = some n ∧
      ∀ (m : Name) (idx : List Nat) (acc : List (Name × List Nat)) (k : Nat), t.wires.address ((m, idx) :: acc) = some k →
        ∃ s size inner, (m, s, size) ∈ t.wires.localIds 1 ∧ inner < size ∧
          NMap.get n.correspondence (accessName ((m, idx) :: acc)) = some (s + inner) ∧ s + inner = k + 1 := by
  obtain ⟨d, h1, hb⟩ := buildDag_spec h.resolves
  obtain ⟨n, es, cs, g1, g2, g3, g4⟩ := hb.ok i t ht
  refine ⟨d, n, h1, g1, fun m idx acc k hk => ?_⟩
  have hmem := List.mem_of_getElem? ht
  obtain ⟨s, sz, inner, h1, h2, h3⟩ := address_localIds t.wires 1 m idx acc k hk (h.named.proper t hmem)
  refine ⟨s, sz, inner, h1, h3, ?_, by omega⟩
  have hn := address_spec t.wires (h.named.proper t hmem) [] _ k hk
  rw [List.nil_append, ← locNames_eq] at hn
  rw [g4.corr, get_local h.named hmem hn]
  congr 1; omega

example : (nm "b", 4, 6) ∈ sub.wires.localIds 1 ∧ sub.wires.address [(nm "b", [1]), (nm "y", [1])] = some 8 ∧
    accessName [(nm "b", [1]), (nm "y", [1])] = nm "b[1].y[1]" := by decide +kernel

theorem edges_kids (ts : List Template) (cs : List (Name × Nat)) (o k : Nat) {e : Edge} (he : e ∈ edgesOf (size ts) (comps ts) o k cs) :
    (e.label, e.goesTo, e.inNumber) ∈ Verif.Dag.layout (size ts) o cs := by
  induction cs generalizing o k with
  | nil => simp [edgesOf] at he
  | cons c cs ih =>
    simp only [edgesOf, List.mem_cons] at he
    rcases he with rfl | he
    · simp [Verif.Dag.layout]
    · simp [Verif.Dag.layout, ih _ _ he]

/-- C57 for signals of subcomponents: the number a template gives to a signal of a subcomponent is the start recorded on the edge plus
the number inside the subcomponent.
Missing: templates declaring one name twice, as for C34. -/
theorem C57_subcomponent_partial {ts : List Template} (h : Program p ts) {i : Nat} {t : Template} (ht : ts[i]? = some t) :
    ∃ d n es, buildDag ts = .ok d ∧ d.nodes[i]? = some n ∧ d.adjacency[i]? = some es ∧ es.map (fun e => (e.label, e.goesTo)) = t.connexions ∧
      ∀ e ∈ es, ∃ n' u, d.nodes[e.goesTo]? = some n' ∧ ts[e.goesTo]? = some u ∧ ∀ s ∈ ownNames u, ∃ k,
        NMap.get n'.correspondence s = some k ∧ NMap.get n.correspondence (e.label ++ '.' :: s) = some (e.inNumber + k) := by
  obtain ⟨d, h1, hb⟩ := buildDag_spec h.resolves
  obtain ⟨n, es, cs, g1, g2, g3, g4⟩ := hb.ok i t ht
  have hed := g4.edges
  refine ⟨d, n, es, h1, g1, g2, ?_, fun e he => ?_⟩
  · rw [hed]
    generalize noLoc t = a
    generalize 1 = b
    generalize t.connexions = cs
    induction cs generalizing a b with
    | nil => rfl
    | cons c cs ih => simp [edgesOf, ih]
  · rw [hed] at he
    have hk := edges_kids ts t.connexions _ _ he
    have hlt := h.named.order i t ht _ (layout_target hk)
    simp only at hlt
    have hi := (List.getElem?_eq_some_iff.1 ht).1
    have hu : ts[e.goesTo]? = some (ts[e.goesTo]'(by omega)) := List.getElem?_eq_getElem _
    obtain ⟨n', es', cs', f1, f2, f3, f4⟩ := hb.ok e.goesTo _ hu
    refine ⟨n', _, f1, hu, fun s hs => ?_⟩
    rw [ownNames_eq] at hs
    obtain ⟨k, hks⟩ := List.mem_iff_getElem?.1 hs
    refine ⟨k + 1, ?_, ?_⟩
    · rw [f4.corr]; exact get_local h.named (List.mem_of_getElem? hu) hks
    · rw [g4.corr]; exact get_child h.named (List.mem_of_getElem? ht) hk (by rw [namesAt_eq hu]; exact hks)

/-- C57 for the offsets recorded for the witness code: for each subcomponent the recorded signal offset and jump are those of the
graph's edge, and the recorded component offset and jump are those of the edge counted from zero.
Missing: templates declaring one name twice, as for C34. -/
theorem C57_jumps_partial {ts : List Template} (h : Program p ts) {i : Nat} {t : Template} (ht : ts[i]? = some t) :
    ∃ d d' js es, buildDag ts = .ok d ∧ buildJumps ts = .ok (d', js) ∧ d.adjacency[i]? = some es ∧
      js[i]? = some (es.map fun e => ⟨e.inNumber, e.inComponent - 1, e.outNumber - e.inNumber, e.outComponent - e.inComponent⟩) := by
  obtain ⟨d, h1, hb⟩ := buildDag_spec h.resolves
  obtain ⟨n, es, cs, g1, g2, g3, g4⟩ := hb.ok i t ht
  obtain ⟨d', js, h2, h3⟩ := buildJumps_spec h.resolves
  refine ⟨d, d', js, es, h1, h2, g2, ?_⟩
  rw [h3, List.getElem?_map, ht, g4.edges, Option.map_some]
  congr 1
  have : ∀ (cs : List (Name × Nat)) (a b : Nat), jumpsOf (size ts) (comps ts) a b cs = (edgesOf (size ts) (comps ts) a (b + 1) cs).map
      fun e => ⟨e.inNumber, e.inComponent - 1, e.outNumber - e.inNumber, e.outComponent - e.inComponent⟩ := by
    intro cs
    induction cs with
    | nil => intro a b; rfl
    | cons c cs ih =>
      intro a b
      rw [jumpsOf, edgesOf, List.map_cons, ih, show b + comps ts c.2 + 1 = b + 1 + comps ts c.2 by omega]
      simp
  exact this _ _ _

example : ∃ d js, buildJumps demo = .ok (d, js) ∧ js[2]? = some [⟨5, 0, 2, 1⟩, ⟨7, 1, 9, 1⟩, ⟨16, 2, 9, 1⟩] := ⟨_, _, rfl, by decide +kernel⟩

/-! ## C58 -/

/-- C58: the sizes put into the witness program are the numbers of signals, of input and output signals and of components of the
component tree.
Missing: templates declaring one name twice, as for C34. -/
theorem C58_stats_partial {ts : List Template} (h : Program p ts) :
    ∃ d, buildDag ts = .ok d ∧
      (dagStats d).signals.getLast? = some (qualified (allComponents ts)).length ∧
      (dagStats d).io.getLast? = some ((allComponents ts).map fun c =>
        (c.1.outputs.names []).length + (c.1.publicInputs.names []).length + (c.1.privateInputs.names []).length).sum ∧
      (dagStats d).components.getLast? = some (allComponents ts).length := by
  obtain ⟨d, h1, hb⟩ := buildDag_spec h.resolves
  have ho := h.named.order
  have hne := h.nonempty
  have hpos := List.length_pos_of_ne_nil hne
  refine ⟨d, h1, ?_⟩
  have key : ∀ w : Template → Nat, (totals w ts).getLast? = some ((allComponents ts).map fun c => w c.1).sum := by
    intro w
    have hlen : (totals w ts).length = ts.length := length_totals w ts
    rw [List.getLast?_eq_getElem?, hlen]
    have h2 := instances_sum ho w ts.length (ts.length - 1) 0 mainPath (by omega) (by omega)
    rw [List.getElem?_eq_getElem (by omega)]
    rw [List.getD_eq_getElem _ 0 (by omega)] at h2
    rw [← h2, ← allComponents_eq ho hne]
    congr 1
    have : ∀ l : List (Nat × Nat × Name), (∀ y ∈ l, y.1 < ts.length) → l.map (fun y => (ts[y.1]?.map w).getD 0) =
        (l.filterMap fun y => ts[y.1]?.map fun t => (t, y.2.2)).map fun c => w c.1 := by
      intro l hl
      induction l with
      | nil => rfl
      | cons y l ih =>
        have ht : ts[y.1]? = some (ts[y.1]'(hl y (by simp))) := List.getElem?_eq_getElem _
        rw [List.filterMap_cons]
        simp only [ht, Option.map_some, List.map_cons, Option.getD_some]
        rw [ih fun y hy => hl y (by simp [hy])]
    rw [← this _ (allInstances_template ho hne)]
    rfl
  rw [dagStats_eq hb]
  refine ⟨?_, ?_, ?_⟩
  · rw [key]
    congr 1
    unfold qualified
    rw [List.length_flatMap]
    congr 1
    apply List.map_congr_left
    intro c _
    rw [List.length_map, ownNames_eq]
    rfl
  · rw [key]
    rfl
  · rw [key]
    simp

example : ∃ d, buildDag demo = .ok d ∧ (dagStats d) = ⟨[9, 2, 25], [3, 2, 12], [1, 1, 4]⟩ := ⟨_, rfl, by decide +kernel⟩

end Verif.Props.Dag
