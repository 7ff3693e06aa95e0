import Verif.DagLemmas

/-! # Lemmas about the component tree -/

set_option linter.unusedSectionVars false
set_option linter.unusedSimpArgs false

namespace Verif.Dag
open Verif.ModArith (Res Fail)
open Verif.Algebra
open Verif.Props.Algebra (ok_bind)

/-- Subcomponents of template `i`. -/
def kidsAt (ts : List Template) (i : Nat) : List (Name × Nat × Nat) := (ts[i]?.map (kids ts)).getD []

/-- The component instances below an instance of template `i` starting after signal `o`, in depth-first order: template, start, path.
The first argument bounds the depth; depth `i + 1` is enough. -/
def instances (ts : List Template) : Nat → Nat → Nat → Name → List (Nat × Nat × Name)
  | 0, _, _, _ => []
  | f + 1, i, o, path =>
    (i, o, path) :: (kidsAt ts i).flatMap fun k => instances ts f k.2.1 (o + k.2.2) (path ++ '.' :: k.1)

/-- All component instances of a program; the last template is the main one. -/
def allInstances (ts : List Template) : List (Nat × Nat × Name) :=
  instances ts ts.length (ts.length - 1) 0 ['m', 'a', 'i', 'n']

/-- Constraints of node `i`. -/
def consAt (d : Graph) (i : Nat) : List C := (d.nodes[i]?.map Node.constraints).getD []

/-- The tree seen at an instance. -/
def treeOf (ts : List Template) (d : Graph) (x : Nat × Nat × Name) : Tree where
  path := x.2.2
  offset := x.2.1
  nodeId := x.1
  signals := List.range' (x.2.1 + 1) (namesAt ts x.1).length
  idToName := ((namesAt ts x.1).zipIdx (x.2.1 + 1)).foldl (fun m e => BMap.insert m e.2 e.1) []
  constraints := (consAt d x.1).map fun c => c.applyOffset x.2.1

theorem sortNats_range' (s n : Nat) : sortNats (List.range' s n) = List.range' s n := by
  unfold sortNats
  apply List.Pairwise.insertionSort_eq
  exact (List.pairwise_lt_range' (s := s) (n := n)).imp fun h => Nat.le_of_lt h

theorem entries_signals (names : List Name) (o : Nat) : (names.zipIdx 1).map (fun e => e.2 + o) = List.range' (o + 1) names.length := by
  rw [← map_snd_zipIdx names (o + 1), zipIdx_shift names o 1, List.map_map]
  apply List.map_congr_left
  intro e _
  simp [Nat.add_comm]

theorem entries_ids (names : List Name) (o : Nat) : ∀ m : BMap Name,
    (names.zipIdx 1).foldl (fun m e => BMap.insert m (e.2 + o) e.1) m = (names.zipIdx (o + 1)).foldl (fun m e => BMap.insert m e.2 e.1) m := by
  intro m
  rw [zipIdx_shift names o 1, List.foldl_map]
  congr 1
  funext m e
  rw [Nat.add_comm]

theorem wf_insert_fold {K : Type} [DecidableEq K] [Inhabited K] {α : Type} (f : α → K × Int) (l : List α) (m : CMap K) (hm : m.WF) :
    (l.foldl (fun acc a => CMap.insert acc (f a).1 (f a).2) m).WF := by
  induction l generalizing m with
  | nil => exact hm
  | cons a l ih => exact ih _ (CMap.wf_insert hm _ _)

theorem wf_rawCorrespondence {K' : Type} [DecidableEq K'] [Inhabited K'] (m : CMap Name) (map : Name → Option K') (m' : CMap K')
    (h : rawCorrespondence m map = .ok m') : m'.WF := by
  unfold rawCorrespondence at h
  have : ∀ (l : CMap Name) (acc r : CMap K'), acc.WF →
      l.foldlM (fun (acc : CMap K') e =>
        if e.1 = default then (.ok (CMap.insert acc default e.2) : Res (CMap K'))
        else match map e.1 with
          | none => .error .panic
          | some id => .ok (CMap.insert acc id e.2)) acc = .ok r → r.WF := by
    intro l
    induction l with
    | nil => intro acc r ha h; cases h; exact ha
    | cons e l ih =>
      intro acc r ha h
      rw [List.foldlM_cons] at h
      split at h
      · exact ih _ r (CMap.wf_insert ha _ _) h
      · split at h
        · cases h
        · exact ih _ r (CMap.wf_insert ha _ _) h
  exact this m [] m' (by simp [CMap.WF, CMap.keys]) h

theorem wf_applyCorrespondence {k : Constraint Name} {map : Name → Option Nat} {k' : C} (h : k.applyCorrespondence map = .ok k') :
    k'.a.WF ∧ k'.b.WF ∧ k'.c.WF := by
  unfold Constraint.applyCorrespondence at h
  cases ha : rawCorrespondence k.a map with
  | error e => rw [ha] at h; cases h
  | ok a =>
    cases hb : rawCorrespondence k.b map with
    | error e => rw [ha, hb] at h; cases h
    | ok b =>
      cases hc : rawCorrespondence k.c map with
      | error e => rw [ha, hb, hc] at h; cases h
      | ok c =>
        rw [ha, hb, hc] at h
        cases h
        exact ⟨wf_rawCorrespondence _ _ _ ha, wf_rawCorrespondence _ _ _ hb, wf_rawCorrespondence _ _ _ hc⟩

theorem mem_mapM {α β : Type} {f : α → Res β} {l : List α} {rs : List β} (h : l.mapM f = .ok rs) {r : β} (hr : r ∈ rs) :
    ∃ a ∈ l, f a = .ok r := by
  induction l generalizing rs with
  | nil => rw [List.mapM_nil] at h; cases h; simp at hr
  | cons a l ih =>
    rw [List.mapM_cons] at h
    cases ha : f a with
    | error e => rw [ha] at h; cases h
    | ok b =>
      rw [ha, ok_bind] at h
      cases hl : l.mapM f with
      | error e => rw [hl] at h; cases h
      | ok bs =>
        rw [hl, ok_bind] at h
        cases h
        rcases List.mem_cons.1 hr with rfl | hr
        · exact ⟨a, by simp, ha⟩
        · obtain ⟨a', h1, h2⟩ := ih hl hr
          exact ⟨a', by simp [h1], h2⟩

theorem rawOffset_zero {m : CMap Nat} (h : m.WF) : rawOffset m 0 = m := by
  rw [rawOffset_eq m h]
  have : (fun e : Nat × Int => (offsetMap 0 e.1, e.2)) = id := by
    funext e
    obtain ⟨k, v⟩ := e
    by_cases hk : k = 0 <;> simp [offsetMap, hk]
  rw [this, List.map_id]

theorem applyOffset_zero {c : C} (ha : c.a.WF) (hb : c.b.WF) (hc : c.c.WF) : c.applyOffset 0 = c := by
  unfold Constraint.applyOffset
  rw [rawOffset_zero ha, rawOffset_zero hb, rawOffset_zero hc]

theorem wf_removeZeros {m : CMap Nat} (h : m.WF) : (removeZeros m).WF := by
  unfold removeZeros
  unfold CMap.WF CMap.keys at *
  exact h.sublist (List.Sublist.map _ List.filter_sublist)

theorem wf_cleaned {ts : List Template} {t : Template} {cs : List C} (h : numbered ts t = .ok cs) :
    ∀ c ∈ cleaned cs, (c.a.WF ∧ c.b.WF ∧ c.c.WF) ∧ c.isEmpty = false := by
  intro c hc
  unfold cleaned at hc
  rw [List.mem_filter, List.mem_map] at hc
  obtain ⟨⟨c0, h0, rfl⟩, he⟩ := hc
  obtain ⟨k, hk, hk'⟩ := mem_mapM h h0
  obtain ⟨w1, w2, w3⟩ := wf_applyCorrespondence hk'
  refine ⟨⟨wf_removeZeros w1, wf_removeZeros w2, wf_removeZeros w3⟩, by simpa using he⟩

theorem getLast?_of {α : Type} {l : List α} {x : α} (h : l[l.length - 1]? = some x) : l.getLast? = some x := by
  rw [List.getLast?_eq_getElem?]; exact h

theorem Tree_new_eq {ts : List Template} {d : Graph} (hb : Built ts d) (hne : ts ≠ []) :
    Tree.new d = .ok (treeOf ts d (ts.length - 1, 0, ['m', 'a', 'i', 'n'])) := by
  have hlen : 0 < ts.length := List.length_pos_iff.2 hne
  have ht : ts[ts.length - 1]? = some (ts[ts.length - 1]'(by omega)) := List.getElem?_eq_getElem _
  obtain ⟨n, es, cs, g1, g2, g3, g4⟩ := hb.ok _ _ ht
  have hl : d.nodes.getLast? = some n := getLast?_of (by rw [hb.nodes]; exact g1)
  unfold Tree.new
  rw [hl]
  simp only [g4.entryIn, g4.entries, entries_signals, sortNats_range']
  unfold treeOf
  simp only [namesAt_eq ht, Nat.zero_add]
  congr 1
  have hcons : consAt d (ts.length - 1) = cleaned cs := by simp [consAt, g1, g4.constraints]
  have hid : (consAt d (ts.length - 1)).map (fun c => c.applyOffset 0) = n.constraints := by
    rw [hcons, g4.constraints]
    conv_rhs => rw [← List.map_id (cleaned cs)]
    apply List.map_congr_left
    intro c hc
    obtain ⟨⟨w1, w2, w3⟩, _⟩ := wf_cleaned g3 c hc
    exact applyOffset_zero w1 w2 w3
  rw [hid]
  simp [Graph.mainId, hb.nodes]

theorem goTo_eq {ts : List Template} {d : Graph} (hb : Built ts d) (x : Nat × Nat × Name) (e : Edge) {tc : Template}
    (hj : ts[e.goesTo]? = some tc) :
    (treeOf ts d x).goTo d e = .ok (treeOf ts d (e.goesTo, x.2.1 + e.inNumber, x.2.2 ++ '.' :: e.label)) := by
  obtain ⟨n, es, cs, g1, g2, g3, g4⟩ := hb.ok _ _ hj
  unfold Tree.goTo
  rw [g1]
  simp only [g4.entries]
  unfold treeOf
  simp only [namesAt_eq hj, entries_ids, entries_signals, sortNats_range']
  congr 2
  have hcons : consAt d e.goesTo = cleaned cs := by simp [consAt, g1, g4.constraints]
  rw [hcons, g4.constraints]
  congr 1
  rw [List.filter_eq_self]
  intro c hc
  simp [(wf_cleaned g3 c hc).2]

theorem edges_eq {ts : List Template} {d : Graph} (hb : Built ts d) (x : Nat × Nat × Name) {t : Template} (ht : ts[x.1]? = some t) :
    (treeOf ts d x).edges d = .ok (edgesOf (size ts) (comps ts) (noLoc t) 1 t.connexions) := by
  obtain ⟨n, es, cs, g1, g2, g3, g4⟩ := hb.ok _ _ ht
  unfold Tree.edges
  have : (treeOf ts d x).nodeId = x.1 := rfl
  rw [this, g2]
  simp only [g4.edges]

theorem edgesOf_layout (sz cp : Nat → Nat) (o k : Nat) (cs : List (Name × Nat)) :
    (edgesOf sz cp o k cs).map (fun e => (e.label, e.goesTo, e.inNumber)) = layout sz o cs := by
  induction cs generalizing o k with
  | nil => rfl
  | cons c cs ih => simp [edgesOf, layout, ih]

theorem foldlM_flatMap {α β σ : Type} (f : σ → β → Res σ) (g : α → List β) (l : List α) (s : σ) :
    (l.flatMap g).foldlM f s = l.foldlM (fun s a => (g a).foldlM f s) s := by
  induction l generalizing s with
  | nil => rfl
  | cons a l ih =>
    rw [List.flatMap_cons, List.foldlM_append, List.foldlM_cons]
    congr 1
    funext s'
    exact ih s'

theorem foldlM_congr' {α σ : Type} {f g : σ → α → Res σ} {l : List α} (h : ∀ a ∈ l, ∀ s, f s a = g s a) (s : σ) :
    l.foldlM f s = l.foldlM g s := by
  induction l generalizing s with
  | nil => rfl
  | cons a l ih =>
    rw [List.foldlM_cons, List.foldlM_cons, h a (by simp)]
    congr 1
    funext s'
    exact ih (fun a ha => h a (by simp [ha])) s'

theorem kidsAt_eq {ts : List Template} {i : Nat} {t : Template} (h : ts[i]? = some t) : kidsAt ts i = kids ts t := by simp [kidsAt, h]

/-- Visiting the tree is a fold over the instances. -/
theorem walk_eq {σ : Type} {ts : List Template} (ho : Ordered ts) {d : Graph} (hb : Built ts d) (f : σ → Tree → Res σ) (fuel : Nat) :
    ∀ (x : Nat × Nat × Name) (t : Template), ts[x.1]? = some t → x.1 < fuel → ∀ s,
      walk d f fuel (treeOf ts d x) s = (instances ts fuel x.1 x.2.1 x.2.2).foldlM (fun s y => f s (treeOf ts d y)) s := by
  induction fuel with
  | zero => intro x t _ h; omega
  | succ fuel ih =>
    intro x t ht hlt s
    unfold walk instances
    rw [List.foldlM_cons]
    have hx : (x.1, x.2.1, x.2.2) = x := rfl
    rw [hx]
    congr 1
    funext s'
    rw [edges_eq hb x ht, ok_bind, kidsAt_eq ht, foldlM_flatMap]
    unfold kids
    rw [← edgesOf_layout (size ts) (comps ts) (noLoc t) 1 t.connexions, List.foldlM_map]
    apply foldlM_congr'
    intro e he s2
    have hmem : (e.label, e.goesTo) ∈ t.connexions := by
      have := List.mem_map_of_mem (f := fun e : Edge => (e.label, e.goesTo, e.inNumber)) he
      rw [edgesOf_layout] at this
      exact layout_target this
    have hj := ho x.1 t ht _ hmem
    have htl := (List.getElem?_eq_some_iff.1 ht).1
    have hjs : ts[e.goesTo]? = some (ts[e.goesTo]'(by simp only at hj; omega)) := List.getElem?_eq_getElem _
    rw [goTo_eq hb x e hjs, ok_bind]
    simp only at hj ⊢
    exact ih (e.goesTo, x.2.1 + e.inNumber, x.2.2 ++ '.' :: e.label) _ hjs (by simp only; omega) s2

theorem layout_signals (sz : Nat → Nat) (base : Nat) (cs : List (Name × Nat)) (o : Nat) :
    (layout sz o cs).flatMap (fun k => List.range' (base + k.2.2 + 1) (sz k.2.1)) =
      List.range' (base + o + 1) (cs.map fun c => sz c.2).sum := by
  induction cs generalizing o with
  | nil => rfl
  | cons c cs ih =>
    simp only [layout, List.flatMap_cons, List.map_cons, List.sum_cons]
    rw [ih, ← List.range'_append_1]
    congr 2
    omega

/-- The local signals of all instances, in order, are a contiguous range. -/
theorem instances_signals {ts : List Template} (ho : Ordered ts) (fuel : Nat) : ∀ (i o : Nat) (path : Name) (t : Template),
    ts[i]? = some t → i < fuel →
    (instances ts fuel i o path).flatMap (fun y => List.range' (y.2.1 + 1) (namesAt ts y.1).length) = List.range' (o + 1) (size ts i) := by
  induction fuel with
  | zero => intro i o path t _ h; omega
  | succ fuel ih =>
    intro i o path t ht hlt
    unfold instances
    rw [List.flatMap_cons, List.flatMap_assoc, kidsAt_eq ht, namesAt_eq ht, size_eq ho ht, ← List.range'_append_1]
    have hloc : (locNames t).length = noLoc t := rfl
    rw [hloc]
    congr 1
    have hstep : (kids ts t).flatMap (fun k => (instances ts fuel k.2.1 (o + k.2.2) (path ++ '.' :: k.1)).flatMap
        fun y => List.range' (y.2.1 + 1) (namesAt ts y.1).length) =
        (kids ts t).flatMap fun k => List.range' (o + k.2.2 + 1) (size ts k.2.1) := by
      rw [List.flatMap_congr]
      intro k hk
      have hj := ho i t ht _ (layout_target hk)
      simp only at hj
      have htl := (List.getElem?_eq_some_iff.1 ht).1
      exact ih k.2.1 (o + k.2.2) _ _ (List.getElem?_eq_getElem (by omega)) (by omega)
    rw [hstep]
    unfold kids
    rw [layout_signals]
    congr 1
    omega

end Verif.Dag
