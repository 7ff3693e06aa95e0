import Verif.TreeLemmas
import Verif.BMapLemmas

/-! # Lemmas about what the visits of the component tree and of its encoding produce -/

set_option linter.unusedSectionVars false
set_option linter.unusedSimpArgs false

namespace Verif.Dag
open Verif.ModArith (Res Fail)
open Verif.Algebra
open Verif.Props.Algebra (ok_bind)

@[simp] theorem unwrap_some {α : Type} (a : α) : unwrap (some a) = .ok a := rfl

theorem last_template {ts : List Template} (hne : ts ≠ []) : ts[ts.length - 1]? = some (ts.getLast hne) := by
  rw [List.getLast_eq_getElem]
  exact List.getElem?_eq_getElem _

/-- A visit of the whole tree is a fold over all instances. -/
theorem walk_all {σ : Type} {ts : List Template} (ho : Ordered ts) {d : Graph} (hb : Built ts d) (hne : ts ≠ [])
    (f : σ → Tree → Res σ) (s : σ) :
    (do let t ← Tree.new d
        walk d f d.nodes.length t s) = (allInstances ts).foldlM (fun s y => f s (treeOf ts d y)) s := by
  rw [Tree_new_eq hb hne, ok_bind, hb.nodes]
  have hlen : 0 < ts.length := List.length_pos_iff.2 hne
  exact walk_eq ho hb f ts.length (ts.length - 1, 0, ['m', 'a', 'i', 'n']) _ (last_template hne) (by simp only; omega) s

theorem foldlM_ok {α σ : Type} (g : σ → α → σ) (l : List α) (s : σ) :
    l.foldlM (fun s a => (.ok (g s a) : Res σ)) s = .ok (l.foldl g s) := by
  induction l generalizing s with
  | nil => rfl
  | cons a l ih => rw [List.foldlM_cons, ok_bind, ih, List.foldl_cons]

theorem foldl_append_flatMap {α β : Type} (g : α → List β) (l : List α) (acc : List β) :
    l.foldl (fun acc a => acc ++ g a) acc = acc ++ l.flatMap g := by
  induction l generalizing acc with
  | nil => simp
  | cons a l ih => rw [List.foldl_cons, ih, List.flatMap_cons, List.append_assoc]

theorem flatMap_single {α β : Type} (f : α → β) (l : List α) : (l.flatMap fun a => [f a]) = l.map f := by
  induction l with
  | nil => rfl
  | cons a l ih => simp [ih]

theorem allInstances_signals {ts : List Template} (ho : Ordered ts) (hne : ts ≠ []) :
    (allInstances ts).flatMap (fun y => List.range' (y.2.1 + 1) (namesAt ts y.1).length) = List.range' 1 (size ts (ts.length - 1)) := by
  have hlen : 0 < ts.length := List.length_pos_iff.2 hne
  exact instances_signals ho ts.length (ts.length - 1) 0 _ _ (last_template hne) (by omega)

theorem produceWitness_eq {ts : List Template} (ho : Ordered ts) {d : Graph} (hb : Built ts d) (hne : ts ≠ []) :
    produceWitness d = .ok (List.range (size ts (ts.length - 1) + 1)) := by
  unfold produceWitness
  rw [walk_all ho hb hne (fun w t => .ok (w ++ t.signals)) [0], foldlM_ok (fun w y => w ++ (treeOf ts d y).signals)]
  rw [foldl_append_flatMap (fun y => (treeOf ts d y).signals)]
  have : (fun y => (treeOf ts d y).signals) = fun y => List.range' (y.2.1 + 1) (namesAt ts y.1).length := rfl
  rw [this, allInstances_signals ho hne, List.range_eq_range', List.range'_succ]
  rfl

/-- Members of `instances` are templates of the program. -/
theorem instances_template {ts : List Template} (ho : Ordered ts) (fuel : Nat) : ∀ (i o : Nat) (path : Name), i < ts.length →
    ∀ y ∈ instances ts fuel i o path, y.1 < ts.length := by
  induction fuel with
  | zero => intro i o path _ y hy; simp [instances] at hy
  | succ fuel ih =>
    intro i o path hi y hy
    unfold instances at hy
    rcases List.mem_cons.1 hy with rfl | hy
    · exact hi
    · rw [List.mem_flatMap] at hy
      obtain ⟨k, hk, hy⟩ := hy
      have ht : ts[i]? = some ts[i] := List.getElem?_eq_getElem hi
      rw [kidsAt_eq ht] at hk
      have := ho i _ ht _ (layout_target hk)
      simp only at this
      exact ih k.2.1 _ _ (by omega) y hy

theorem allInstances_template {ts : List Template} (ho : Ordered ts) (hne : ts ≠ []) : ∀ y ∈ allInstances ts, y.1 < ts.length :=
  instances_template ho _ _ _ _ (by have := List.length_pos_iff.2 hne; omega)

theorem idToName_sorted (l : List (Name × Nat)) (m : BMap Name) (h : BMap.Sorted m) :
    BMap.Sorted (l.foldl (fun m e => BMap.insert m e.2 e.1) m) := by
  induction l generalizing m with
  | nil => exact h
  | cons e l ih => exact ih _ (BMap.sorted_insert h _ _)

theorem idToName_get (l : List (Name × Nat)) (hn : (l.map Prod.snd).Nodup) (m : BMap Name) (h : BMap.Sorted m) {e : Name × Nat}
    (he : e ∈ l) : BMap.get (l.foldl (fun m e => BMap.insert m e.2 e.1) m) e.2 = some e.1 := by
  induction l using List.reverseRecOn generalizing m with
  | nil => simp at he
  | append_singleton l x ih =>
    rw [List.foldl_append, List.foldl_cons, List.foldl_nil, BMap.get_insert _ _ _ _ (idToName_sorted l m h)]
    rw [List.map_append, List.nodup_append] at hn
    rcases List.mem_append.1 he with he | he
    · have hne : e.2 ≠ x.2 := hn.2.2 e.2 (List.mem_map_of_mem he) x.2 (by simp)
      rw [if_neg hne]
      exact ih hn.1 m h he
    · rw [List.mem_singleton] at he
      subst he
      rw [if_pos rfl]

/-- Lines of the symbol file for one instance. -/
def symLines (ts : List Template) (y : Nat × Nat × Name) : List SymElem :=
  ((namesAt ts y.1).zipIdx (y.2.1 + 1)).map fun e => ⟨e.2, e.2, y.1, y.2.2 ++ '.' :: e.1⟩

theorem symTree_fold (t : Tree) (l : List (Name × Nat)) (h : ∀ e ∈ l, BMap.get t.idToName e.2 = some e.1) (acc : List SymElem) :
    (l.map Prod.snd).foldlM (fun (acc : List SymElem) (s : Nat) => (do
      let name ← unwrap (BMap.get t.idToName s)
      .ok (acc ++ [⟨s, s, t.nodeId, t.path ++ '.' :: name⟩]) : Res (List SymElem))) acc =
      .ok (acc ++ l.map fun e : Name × Nat => (⟨e.2, e.2, t.nodeId, t.path ++ '.' :: e.1⟩ : SymElem)) := by
  induction l generalizing acc with
  | nil => simp [pure, Except.pure]
  | cons e l ih =>
    rw [List.map_cons, List.foldlM_cons, h e (by simp)]
    simp only [unwrap_some, ok_bind]
    rw [ih fun e' he' => h e' (by simp [he'])]
    simp

theorem symTree_eq (ts : List Template) (d : Graph) (y : Nat × Nat × Name) (acc : List SymElem) :
    symTree acc (treeOf ts d y) = .ok (acc ++ symLines ts y) := by
  unfold symTree
  have hs : (treeOf ts d y).signals = ((namesAt ts y.1).zipIdx (y.2.1 + 1)).map Prod.snd := by rw [map_snd_zipIdx]; rfl
  rw [hs, symTree_fold (treeOf ts d y)]
  · rfl
  · intro e he
    refine idToName_get _ ?_ [] BMap.sorted_nil he
    rw [map_snd_zipIdx]
    exact List.nodup_range'

theorem dagSym_eq {ts : List Template} (ho : Ordered ts) {d : Graph} (hb : Built ts d) (hne : ts ≠ []) :
    dagSym d = .ok ((allInstances ts).flatMap (symLines ts)) := by
  unfold dagSym
  rw [walk_all ho hb hne symTree []]
  simp only [symTree_eq]
  rw [foldlM_ok (fun acc y => acc ++ symLines ts y), foldl_append_flatMap, List.nil_append]

/-- Constraints of one instance. -/
def shifted (d : Graph) (y : Nat × Nat × Name) : List C := (consAt d y.1).map fun c => c.applyOffset y.2.1

theorem constraintSection_eq {ts : List Template} (ho : Ordered ts) {d : Graph} (hb : Built ts d) (hne : ts ≠ []) :
    constraintSection d = .ok ((allInstances ts).flatMap (shifted d), size ts (ts.length - 1)) := by
  unfold constraintSection
  rw [walk_all ho hb hne _ ([], 0)]
  rw [foldlM_ok (fun (acc : List C × Nat) y => (acc.1 ++ (treeOf ts d y).constraints, acc.2 + (treeOf ts d y).signals.length))]
  have : ∀ (l : List (Nat × Nat × Name)) (acc : List C × Nat),
      l.foldl (fun (acc : List C × Nat) y => (acc.1 ++ (treeOf ts d y).constraints, acc.2 + (treeOf ts d y).signals.length)) acc =
        (acc.1 ++ l.flatMap (shifted d),
          acc.2 + (l.flatMap fun y => List.range' (y.2.1 + 1) (namesAt ts y.1).length).length) := by
    intro l
    induction l with
    | nil => intro acc; simp
    | cons y l ih =>
      intro acc
      rw [List.foldl_cons, ih]
      simp only [List.flatMap_cons, List.append_assoc, List.length_append, treeOf, shifted, Nat.add_assoc]
  rw [this, allInstances_signals ho hne]
  simp

/-! ## The encoding -/

/-- Spec of the iterator at an instance. -/
def iterOf (ts : List Template) (d : Graph) (y : Nat × Nat × Name) : EncIter where
  nodeId := y.1
  path := y.2.2
  offset := y.2.1
  signals := ((namesAt ts y.1).zipIdx (y.2.1 + 1)).map fun e => (y.2.2 ++ '.' :: e.1, e.2)
  nonLinear := ((consAt d y.1).filter fun c => !c.isLinear).map fun c => c.applyOffset y.2.1

/-- The numbers of the ordered signals of a template. -/
def orderedIds (ts : List Template) (t : Template) : List Nat := t.ordered.filterMap fun s => NMap.get (table ts t) s

/-- Ordered signals have entries in the table. -/
def OrderedKnown (ts : List Template) : Prop := ∀ t ∈ ts, ∀ s ∈ t.ordered, s ∈ (table ts t).map Prod.fst

theorem insertionSort_zipIdx (l : List Name) (k : Nat) :
    (l.zipIdx k).insertionSort (fun a b => a.2 ≤ b.2) = l.zipIdx k := by
  apply List.Pairwise.insertionSort_eq
  have h : ((l.zipIdx k).map Prod.snd).Pairwise (· ≤ ·) := by
    rw [map_snd_zipIdx]
    exact (List.pairwise_lt_range' (s := k) (n := l.length)).imp fun h => Nat.le_of_lt h
  exact List.pairwise_map.1 h

theorem ordered_mapM (m : NMap) (l : List Name) (h : ∀ s ∈ l, s ∈ m.map Prod.fst) :
    l.mapM (fun s => unwrap (NMap.get m s)) = .ok (l.filterMap fun s => NMap.get m s) := by
  induction l with
  | nil => rfl
  | cons s l ih =>
    have := (NMap.get_isSome m s).2 (h s (by simp))
    obtain ⟨v, hv⟩ := Option.isSome_iff_exists.1 this
    rw [List.mapM_cons, hv]
    simp only [unwrap_some, ok_bind]
    rw [ih fun s' hs' => h s' (by simp [hs']), ok_bind, List.filterMap_cons, hv]
    rfl

theorem encodeNode_eq {ts : List Template} (hk : OrderedKnown ts) {i : Nat} {t : Template} (ht : ts[i]? = some t) {n : Node}
    {es : List Edge} {cs : List C} (hn : NodeOK ts i t n es cs) : encodeNode i n = .ok {
      id := i
      name := t.name
      parameters := t.parameters
      signals := (namesAt ts i).zipIdx 1
      ordered := orderedIds ts t
      nonLinear := cs.filter fun c => !c.isLinear
      isCustomGate := t.isCustomGate } := by
  unfold encodeNode
  rw [hn.ordered, hn.corr, ordered_mapM _ _ (hk t (List.mem_of_getElem? ht)), ok_bind, hn.entries, insertionSort_zipIdx, hn.name,
    hn.parameters, hn.custom, hn.constraints, namesAt_eq ht]
  rfl

/-- What the encoding contains. -/
structure EncOK (ts : List Template) (d : Graph) (enc : Encoding) : Prop where
  init : enc.init = ts.length - 1
  len : enc.nodes.length = ts.length
  node : ∀ (i : Nat) (t : Template), ts[i]? = some t → enc.nodes[i]? = some ({
      id := i
      name := t.name
      parameters := t.parameters
      signals := (namesAt ts i).zipIdx 1
      ordered := orderedIds ts t
      nonLinear := (consAt d i).filter fun c => !c.isLinear
      isCustomGate := t.isCustomGate } : EncNode)
  adj : ∀ (i : Nat) (t : Template), ts[i]? = some t → enc.adjacency[i]? = some ((kids ts t).map fun k => (⟨k.2.1, k.1, k.2.2⟩ : EncEdge))

theorem mapM_ok_of {α β : Type} (f : α → Res β) (g : α → β) (l : List α) (h : ∀ a ∈ l, f a = .ok (g a)) : l.mapM f = .ok (l.map g) := by
  induction l with
  | nil => rfl
  | cons a l ih =>
    rw [List.mapM_cons, h a (by simp), ok_bind, ih fun a' ha' => h a' (by simp [ha']), ok_bind]
    rfl

theorem mapM_ok_exists {α β : Type} (f : α → Res β) (l : List α) (h : ∀ a ∈ l, ∃ b, f a = .ok b) :
    ∃ bs, l.mapM f = .ok bs ∧ bs.length = l.length ∧ ∀ (i : Nat) (a : α), l[i]? = some a → ∃ b, f a = .ok b ∧ bs[i]? = some b := by
  induction l with
  | nil => exact ⟨[], rfl, rfl, fun i a h => by simp at h⟩
  | cons a l ih =>
    obtain ⟨b, hb⟩ := h a (by simp)
    obtain ⟨bs, h1, h2, h3⟩ := ih fun a' ha' => h a' (by simp [ha'])
    refine ⟨b :: bs, by rw [List.mapM_cons, hb, ok_bind, h1, ok_bind]; rfl, by simp [h2], fun i a' hi => ?_⟩
    cases i with
    | zero => simp only [List.getElem?_cons_zero, Option.some.injEq] at hi; subst hi; exact ⟨b, hb, by simp⟩
    | succ i => rw [List.getElem?_cons_succ] at hi; simpa using h3 i a' hi

theorem encode_ok {ts : List Template} {d : Graph} (hb : Built ts d) (hk : OrderedKnown ts) (k : Nat) :
    ∃ enc, encode d k = .ok enc ∧ EncOK ts d enc ∧ enc.noConstraints = k := by
  have hnode : ∀ (i : Nat) (n : Node), d.nodes[i]? = some n → ∃ t, ts[i]? = some t := by
    intro i n hn
    have := (List.getElem?_eq_some_iff.1 hn).1
    rw [hb.nodes] at this
    exact ⟨_, List.getElem?_eq_getElem this⟩
  obtain ⟨bs, h1, h2, h3⟩ := mapM_ok_exists (fun e : Node × Nat => encodeNode e.2 e.1) d.nodes.zipIdx (by
    rintro ⟨n, i⟩ he
    rw [List.mem_zipIdx_iff_getElem?] at he
    obtain ⟨t, ht⟩ := hnode i n he
    obtain ⟨n', es, cs, g1, g2, g3, g4⟩ := hb.ok i t ht
    rw [g1] at he; cases he
    exact ⟨_, encodeNode_eq hk ht g4⟩)
  refine ⟨_, by unfold encode; rw [h1, ok_bind], ⟨by simp [Graph.mainId, hb.nodes], by simp [h2, hb.nodes], fun i t ht => ?_,
    fun i t ht => ?_⟩, rfl⟩
  · obtain ⟨n, es, cs, g1, g2, g3, g4⟩ := hb.ok i t ht
    obtain ⟨b, e1, e2⟩ := h3 i (n, i) (by rw [List.getElem?_zipIdx]; simp [g1])
    simp only at e1
    rw [encodeNode_eq hk ht g4] at e1
    injection e1 with e1
    simp only
    rw [e2, ← e1]
    simp [consAt, g1, g4.constraints]
  · obtain ⟨n, es, cs, g1, g2, g3, g4⟩ := hb.ok i t ht
    simp only [List.getElem?_map, g2, Option.map_some, Option.some.injEq]
    rw [g4.edges]
    unfold kids
    rw [← edgesOf_layout (size ts) (comps ts) (noLoc t) 1 t.connexions, List.map_map]
    rfl

theorem buildIter_eq {ts : List Template} {d : Graph} {enc : Encoding} (he : EncOK ts d enc) (y : Nat × Nat × Name)
    (hy : y.1 < ts.length) : buildIter enc y.1 y.2.2 y.2.1 = .ok (iterOf ts d y) := by
  unfold buildIter
  rw [he.node y.1 _ (List.getElem?_eq_getElem hy)]
  simp only [iterOf]
  congr 2
  rw [zipIdx_shift (namesAt ts y.1) y.2.1 1, List.map_map]
  apply List.map_congr_left
  intro e _
  simp [Nat.add_comm]

/-- Instances with a choice of the components below which to descend. -/
def instancesIf (ts : List Template) (go : Nat → Bool) : Nat → Nat → Nat → Name → List (Nat × Nat × Name)
  | 0, _, _, _ => []
  | f + 1, i, o, path =>
    (i, o, path) :: (if go i then (kidsAt ts i).flatMap fun k => instancesIf ts go f k.2.1 (o + k.2.2) (path ++ '.' :: k.1) else [])

theorem instancesIf_true (ts : List Template) (fuel : Nat) : ∀ (i o : Nat) (path : Name),
    instancesIf ts (fun _ => true) fuel i o path = instances ts fuel i o path := by
  induction fuel with
  | zero => intro i o path; rfl
  | succ fuel ih => intro i o path; simp [instancesIf, instances, ih]

theorem instancesIf_mem {ts : List Template} {go : Nat → Bool} (fuel : Nat) : ∀ (i o : Nat) (path : Name),
    ∀ y ∈ instancesIf ts go fuel i o path, y ∈ instances ts fuel i o path := by
  induction fuel with
  | zero => intro i o path y hy; simp [instancesIf] at hy
  | succ fuel ih =>
    intro i o path y hy
    unfold instancesIf at hy
    unfold instances
    rcases List.mem_cons.1 hy with rfl | hy
    · simp
    · split at hy
      · rw [List.mem_flatMap] at hy
        obtain ⟨k, hk, hy⟩ := hy
        exact List.mem_cons_of_mem _ (List.mem_flatMap.2 ⟨k, hk, ih _ _ _ y hy⟩)
      · simp at hy

theorem iterate_eq {σ : Type} {ts : List Template} (ho : Ordered ts) {d : Graph} {enc : Encoding} (he : EncOK ts d enc)
    (f : σ → EncIter → Res (σ × Bool)) (g : σ → Nat × Nat × Name → Res σ) (go : Nat → Bool)
    (hf : ∀ s y, y.1 < ts.length → f s (iterOf ts d y) = (do let s' ← g s y; .ok (s', go y.1))) (fuel : Nat) :
    ∀ (y : Nat × Nat × Name), y.1 < ts.length → y.1 < fuel → ∀ s,
      iterate enc f fuel (iterOf ts d y) s = (instancesIf ts go fuel y.1 y.2.1 y.2.2).foldlM g s := by
  induction fuel with
  | zero => intro y _ h; omega
  | succ fuel ih =>
    intro y hy hlt s
    have ht : ts[y.1]? = some ts[y.1] := List.getElem?_eq_getElem hy
    unfold iterate instancesIf
    rw [List.foldlM_cons, hf s y hy]
    have hyy : (y.1, y.2.1, y.2.2) = y := rfl
    rw [hyy]
    cases hg : g s y with
    | error e => rfl
    | ok s' =>
      simp only [ok_bind]
      cases hgo : go y.1 with
      | false => rfl
      | true =>
        simp only [if_true]
        have hed : (iterOf ts d y).edges enc = .ok ((kids ts ts[y.1]).map fun k => ⟨k.2.1, k.1, k.2.2⟩) := by
          unfold EncIter.edges
          have : (iterOf ts d y).nodeId = y.1 := rfl
          rw [this, he.adj y.1 _ ht]
        rw [hed, ok_bind, kidsAt_eq ht, foldlM_flatMap, List.foldlM_map]
        apply foldlM_congr'
        intro k hk s2
        have hj := ho y.1 _ ht _ (layout_target hk)
        simp only at hj
        have hnext : (iterOf ts d y).next enc ⟨k.2.1, k.1, k.2.2⟩ =
            .ok (iterOf ts d (k.2.1, y.2.1 + k.2.2, y.2.2 ++ '.' :: k.1)) :=
          buildIter_eq he (k.2.1, y.2.1 + k.2.2, y.2.2 ++ '.' :: k.1) (by simp only; omega)
        rw [hnext, ok_bind]
        exact ih (k.2.1, y.2.1 + k.2.2, y.2.2 ++ '.' :: k.1) (by simp only; omega) (by simp only; omega) s2

/-- Visiting the whole encoding. -/
theorem iterate_all {σ : Type} {ts : List Template} (ho : Ordered ts) (hne : ts ≠ []) {d : Graph} {enc : Encoding} (he : EncOK ts d enc)
    (f : σ → EncIter → Res (σ × Bool)) (g : σ → Nat × Nat × Name → Res σ) (go : Nat → Bool)
    (hf : ∀ s y, y.1 < ts.length → f s (iterOf ts d y) = (do let s' ← g s y; .ok (s', go y.1))) (s : σ) :
    (do let it ← EncIter.new enc
        iterate enc f enc.nodes.length it s) =
      (instancesIf ts go ts.length (ts.length - 1) 0 ['m', 'a', 'i', 'n']).foldlM g s := by
  have hlen : 0 < ts.length := List.length_pos_iff.2 hne
  have h0 : EncIter.new enc = .ok (iterOf ts d (ts.length - 1, 0, ['m', 'a', 'i', 'n'])) := by
    unfold EncIter.new
    rw [he.init]
    exact buildIter_eq he (ts.length - 1, 0, ['m', 'a', 'i', 'n']) (by simp only; omega)
  rw [h0, ok_bind, he.len]
  exact iterate_eq ho he f g go hf ts.length (ts.length - 1, 0, ['m', 'a', 'i', 'n']) (by simp only; omega) (by simp only; omega) s

theorem encodedNonLinear_eq {ts : List Template} (ho : Ordered ts) (hne : ts ≠ []) {d : Graph} {enc : Encoding} (he : EncOK ts d enc) :
    encodedNonLinear enc = .ok ((allInstances ts).flatMap fun y =>
      ((consAt d y.1).filter fun c => !c.isLinear).map fun c => c.applyOffset y.2.1) := by
  unfold encodedNonLinear
  rw [iterate_all ho hne he (fun acc it => .ok (acc ++ it.nonLinear, true))
    (fun acc y => .ok (acc ++ ((consAt d y.1).filter fun c => !c.isLinear).map fun c => c.applyOffset y.2.1)) (fun _ => true)
    (fun s y _ => rfl)]
  rw [instancesIf_true, foldlM_ok (fun (acc : List C) (y : Nat × Nat × Name) =>
    acc ++ ((consAt d y.1).filter fun c => !c.isLinear).map fun c => c.applyOffset y.2.1), foldl_append_flatMap, List.nil_append]
  rfl

/-- Lines of the symbol file of the simplified circuit for one instance. -/
def symLinesMapped (ts : List Template) (map : BMap Nat) (y : Nat × Nat × Name) : List SymElem :=
  ((namesAt ts y.1).zipIdx (y.2.1 + 1)).map fun e =>
    ⟨e.2, if symWitness map e.2 = map.length then -1 else symWitness map e.2, y.1, y.2.2 ++ '.' :: e.1⟩

theorem listSym_eq {ts : List Template} (ho : Ordered ts) (hne : ts ≠ []) {d : Graph} {enc : Encoding} (he : EncOK ts d enc) (map : BMap Nat) :
    listSym enc map = .ok ((allInstances ts).flatMap (symLinesMapped ts map)) := by
  unfold listSym
  rw [iterate_all ho hne he (fun acc it => .ok (symIter map acc it, true))
    (fun acc y => .ok (acc ++ symLinesMapped ts map y)) (fun _ => true) (by
      intro s y _
      simp only [ok_bind]
      congr 2
      unfold symIter symLinesMapped
      rw [show (iterOf ts d y).signals = ((namesAt ts y.1).zipIdx (y.2.1 + 1)).map fun e => (y.2.2 ++ '.' :: e.1, e.2) from rfl,
        List.foldl_map]
      have := foldl_append_flatMap (fun e : Name × Nat =>
        [(⟨e.2, if symWitness map e.2 = map.length then -1 else symWitness map e.2, y.1, y.2.2 ++ '.' :: e.1⟩ : SymElem)])
        ((namesAt ts y.1).zipIdx (y.2.1 + 1)) s
      rw [flatMap_single] at this
      exact this)]
  rw [instancesIf_true, foldlM_ok (fun acc y => acc ++ symLinesMapped ts map y), foldl_append_flatMap, List.nil_append]
  rfl

end Verif.Dag
