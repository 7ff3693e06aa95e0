import Verif.PlaceLemmas
import Verif.Props.R1cs

/-! # Lemmas about what is exported after simplification -/

set_option linter.unusedSectionVars false
set_option linter.unusedSimpArgs false

namespace Verif.Dag
open Verif.ModArith (Res Fail)
open Verif.Algebra
open Verif.Props.Algebra (ok_bind GoodRenaming)

variable {p : Nat}

/-! ## The witness list -/

theorem witnessVec_fold (l : List (Nat × Nat)) (w : List Nat) (hv : ∀ e ∈ l, e.2 < w.length) (hn : (l.map Prod.snd).Nodup) :
    ∃ w', l.foldlM (fun (w : List Nat) (e : Nat × Nat) => if e.2 < w.length then (.ok (w.set e.2 e.1) : Res (List Nat)) else .error .panic) w =
      .ok w' ∧ w'.length = w.length ∧ (∀ e ∈ l, w'[e.2]? = some e.1) ∧ ∀ i, i ∉ l.map Prod.snd → w'[i]? = w[i]? := by
  induction l generalizing w with
  | nil => exact ⟨w, rfl, rfl, by simp, by simp⟩
  | cons a l ih =>
    rw [List.map_cons, List.nodup_cons] at hn
    have ha := hv a (by simp)
    obtain ⟨w', h1, h2, h3, h4⟩ := ih (w.set a.2 a.1) (fun e he => by rw [List.length_set]; exact hv e (by simp [he])) hn.2
    refine ⟨w', ?_, by rw [h2, List.length_set], fun e he => ?_, fun i hi => ?_⟩
    · rw [List.foldlM_cons, if_pos ha, ok_bind, h1]
    · rcases List.mem_cons.1 he with rfl | he
      · rw [h4 _ hn.1, List.getElem?_set_self ha]
      · exact h3 e he
    · rw [List.map_cons, List.mem_cons, not_or] at hi
      rw [h4 i hi.2, List.getElem?_set_ne (Ne.symm hi.1)]

theorem witnessVec_spec (order : List (Nat × Nat)) (hv : ∀ e ∈ order, e.2 < order.length) (hn : (order.map Prod.snd).Nodup) :
    ∃ w, witnessVec order = .ok w ∧ w.length = order.length ∧ ∀ x i, (x, i) ∈ order ↔ w[i]? = some x := by
  obtain ⟨w, h1, h2, h3, _⟩ := witnessVec_fold order (List.replicate order.length 0) (by simpa using hv) hn
  rw [List.length_replicate] at h2
  refine ⟨w, h1, h2, fun x i => ⟨fun h => h3 (x, i) h, fun h => ?_⟩⟩
  have hi : i < order.length := by rw [← h2]; exact (List.getElem?_eq_some_iff.1 h).1
  have hmem : i ∈ order.map Prod.snd := by
    have hperm : (order.map Prod.snd).Perm (List.range order.length) := by
      have hs : (order.map Prod.snd).Subperm (List.range order.length) := by
        refine hn.subperm fun i hi => ?_
        obtain ⟨e, he, rfl⟩ := List.mem_map.1 hi
        exact List.mem_range.2 (hv e he)
      exact hs.perm_of_length_le (by simp)
    exact hperm.mem_iff.2 (List.mem_range.2 hi)
  obtain ⟨e, he, rfl⟩ := List.mem_map.1 hmem
  have := h3 e he
  rw [h] at this
  injection this with this
  subst this
  exact he

/-! ## Custom gates -/

/-- The part of a report name before the last opening parenthesis. -/
def baseName (n : Name) : Name := (n.reverse.dropWhile (· ≠ '(')).tail.reverse

theorem popName_ok {n : Name} (h : '(' ∈ n) : popName n = .ok (baseName n) := by
  unfold popName baseName
  have : n.reverse.dropWhile (· ≠ '(') ≠ [] := by
    intro hd
    have : ∀ (l : List Char), '(' ∈ l → l.dropWhile (· ≠ '(') ≠ [] := by
      intro l hl
      induction l with
      | nil => cases hl
      | cons a l ih =>
        rw [List.dropWhile_cons]
        split
        · rename_i ha
          refine ih ((List.mem_cons.1 hl).resolve_left fun h => ?_)
          subst h
          simp at ha
        · simp
    exact this _ (by simpa using h) hd
  cases hc : n.reverse.dropWhile (· ≠ '(') with
  | nil => exact absurd hc this
  | cons a r => rfl

theorem customUsage_eq (nodes : List (Name × List Int × Bool)) (h : ∀ n ∈ nodes, n.2.2 = true → '(' ∈ n.1) :
    customUsage nodes = .ok ((nodes.filter fun n => n.2.2).map (fun n => (baseName n.1, n.2.1)), (nodes.filter fun n => n.2.2).map Prod.fst) := by
  unfold customUsage
  have : ∀ (l : List (Name × List Int × Bool)) (acc : List (Name × List Int) × List Name), (∀ n ∈ l, n.2.2 = true → '(' ∈ n.1) →
      l.foldlM (fun (acc : List (Name × List Int) × List Name) n =>
        if n.2.2 then (do
          let name ← popName n.1
          .ok (acc.1 ++ [(name, n.2.1)], acc.2 ++ [n.1]) : Res _)
        else .ok acc) acc =
      .ok (acc.1 ++ (l.filter fun n => n.2.2).map (fun n => (baseName n.1, n.2.1)), acc.2 ++ (l.filter fun n => n.2.2).map Prod.fst) := by
    intro l
    induction l with
    | nil => intro acc _; simp [pure, Except.pure]
    | cons n l ih =>
      intro acc hl
      rw [List.foldlM_cons]
      by_cases hn : n.2.2 = true
      · rw [if_pos hn, popName_ok (hl n (by simp) hn)]
        simp only [ok_bind]
        rw [ih _ fun n' hn' => hl n' (by simp [hn'])]
        simp [hn]
      · rw [if_neg hn, ok_bind, ih _ fun n' hn' => hl n' (by simp [hn'])]
        simp [hn]
  rw [this nodes ([], []) h]
  simp

/-- What one instance adds to the table of applied custom gates; `f` gives the number written for a signal. -/
def appliedAt (ts : List Template) (f : Nat → Res Nat) (y : Nat × Nat × Name) : Res (List (Name × List Nat)) :=
  match ts[y.1]? with
  | none => .error .panic
  | some t =>
    if t.isCustomGate then do
      let signals ← (orderedIds ts t).mapM fun s => f (s + y.2.1)
      .ok [(t.name, signals)]
    else .ok []

/-- Where the traversal goes on. -/
def goOn (ts : List Template) (i : Nat) : Bool := !customAt ts i

/-- The instances visited for the custom gate tables. -/
def visited (ts : List Template) : List (Nat × Nat × Name) :=
  instancesIf ts (goOn ts) ts.length (ts.length - 1) 0 ['m', 'a', 'i', 'n']

theorem customIter_eq {ts : List Template} {d : Graph} {enc : Encoding} (he : EncOK ts d enc) (map : BMap Nat)
    (acc : List (Name × List Nat)) (y : Nat × Nat × Name) (hy : y.1 < ts.length) :
    customIter enc map acc (iterOf ts d y) = (do
      let s' ← (do
        let l ← appliedAt ts (fun x => unwrap (BMap.get map x)) y
        .ok (acc ++ l) : Res (List (Name × List Nat)))
      .ok (s', goOn ts y.1)) := by
  have ht : ts[y.1]? = some ts[y.1] := List.getElem?_eq_getElem hy
  unfold customIter appliedAt
  have : (iterOf ts d y).nodeId = y.1 := rfl
  have hoff : (iterOf ts d y).offset = y.2.1 := rfl
  rw [this, he.node y.1 _ ht, ht, hoff]
  simp only [goOn, customAt_eq ht]
  by_cases hc : ts[y.1].isCustomGate = true
  · simp only [hc, if_true, Bool.not_true]
    cases (orderedIds ts ts[y.1]).mapM fun s => unwrap (BMap.get map (s + y.2.1)) with
    | error e => rfl
    | ok v => rfl
  · simp only [Bool.not_eq_true] at hc
    simp only [hc, Bool.false_eq_true, if_false, Bool.not_false]
    simp [ok_bind, bind, Except.bind]

theorem foldlM_collect {α β : Type} (f : α → Res (List β)) (g : α → List β) (l : List α) (h : ∀ a ∈ l, f a = .ok (g a)) (acc : List β) :
    l.foldlM (fun (acc : List β) a => (do
      let x ← f a
      .ok (acc ++ x) : Res (List β))) acc = .ok (acc ++ l.flatMap g) := by
  induction l generalizing acc with
  | nil => simp [pure, Except.pure]
  | cons a l ih =>
    rw [List.foldlM_cons, h a (by simp)]
    simp only [ok_bind]
    rw [ih fun a' ha' => h a' (by simp [ha'])]
    simp

/-- The applied custom gates: name and numbers. -/
def appliedList (ts : List Template) (g : Nat → Nat) (y : Nat × Nat × Name) : List (Name × List Nat) :=
  match ts[y.1]? with
  | none => []
  | some t => if t.isCustomGate then [(t.name, (orderedIds ts t).map fun s => g (s + y.2.1))] else []

theorem appliedAt_ok {ts : List Template} (f : Nat → Res Nat) (g : Nat → Nat) {y : Nat × Nat × Name} (hy : y.1 < ts.length)
    (h : ∀ t, ts[y.1]? = some t → t.isCustomGate = true → ∀ s ∈ orderedIds ts t, f (s + y.2.1) = .ok (g (s + y.2.1))) :
    appliedAt ts f y = .ok (appliedList ts g y) := by
  have ht : ts[y.1]? = some ts[y.1] := List.getElem?_eq_getElem hy
  unfold appliedAt appliedList
  rw [ht]
  simp only
  by_cases hc : ts[y.1].isCustomGate = true
  · rw [if_pos hc, if_pos hc, mapM_ok_of _ _ _ (h _ ht hc), ok_bind]
  · rw [if_neg hc, if_neg hc]

theorem findIndexes_eq (order : List Name) (data : List (Name × List Nat)) (h : ∀ e ∈ data, e.1 ∈ order) :
    findIndexes order data = .ok (data.map fun e => (order.findIdx (· = e.1), e.2)) := by
  unfold findIndexes
  refine mapM_ok_of _ _ _ fun e he => ?_
  simp only
  rw [if_pos]
  exact List.findIdx_lt_length_of_exists ⟨e.1, h e he, by simp⟩

/-- The custom gates of a program, in template order. -/
def gates (ts : List Template) : List Template := ts.filter Template.isCustomGate

/-- The table of used custom gates. -/
def usedTable (ts : List Template) : List (List Nat × List Int) := (gates ts).map fun t => (utf8 (baseName t.name), t.parameters)

/-- The table of applied custom gates. -/
def appliedTable (ts : List Template) (g : Nat → Nat) : List (Nat × List Nat) :=
  ((visited ts).flatMap (appliedList ts g)).map fun e => (((gates ts).map Template.name).findIdx (· = e.1), e.2)

theorem applied_names {ts : List Template} (g : Nat → Nat) : ∀ e ∈ (visited ts).flatMap (appliedList ts g), e.1 ∈ (gates ts).map Template.name := by
  intro e he
  obtain ⟨y, _, he⟩ := List.mem_flatMap.1 he
  unfold appliedList at he
  cases ht : ts[y.1]? with
  | none => rw [ht] at he; simp at he
  | some t =>
    rw [ht] at he
    simp only at he
    split at he
    · rename_i hc
      simp only [List.mem_singleton] at he
      subst he
      exact List.mem_map_of_mem (List.mem_filter.2 ⟨List.mem_of_getElem? ht, hc⟩)
    · simp at he

theorem visited_mem {ts : List Template} : ∀ y ∈ visited ts, y ∈ allInstances ts := fun y hy => instancesIf_mem _ _ _ _ y hy

theorem listCustom_eq {ts : List Template} (ho : Ordered ts) (hne : ts ≠ []) {d : Graph} {enc : Encoding} (he : EncOK ts d enc) (map : BMap Nat)
    (hname : ∀ t ∈ ts, t.isCustomGate = true → '(' ∈ t.name)
    (hmap : ∀ y ∈ allInstances ts, ∀ t, ts[y.1]? = some t → t.isCustomGate = true → ∀ s ∈ orderedIds ts t, (BMap.get map (s + y.2.1)).isSome) :
    listCustom enc map = .ok (usedTable ts, appliedTable ts fun x => (BMap.get map x).getD 0) := by
  have hnodes : (enc.nodes.map fun n => (n.name, n.parameters, n.isCustomGate)) = ts.map fun t => (t.name, t.parameters, t.isCustomGate) := by
    apply List.ext_getElem?
    intro i
    rw [List.getElem?_map, List.getElem?_map]
    cases ht : ts[i]? with
    | none =>
      have : ts.length ≤ i := List.getElem?_eq_none_iff.1 ht
      rw [List.getElem?_eq_none_iff.2 (by rw [he.len]; exact this)]
      rfl
    | some t => rw [he.node i t ht]; rfl
  have husage : customUsage (ts.map fun t => (t.name, t.parameters, t.isCustomGate)) =
      .ok ((gates ts).map (fun t => (baseName t.name, t.parameters)), (gates ts).map Template.name) := by
    rw [customUsage_eq _ (by
      intro n hn hc
      obtain ⟨t, ht, rfl⟩ := List.mem_map.1 hn
      exact hname t ht hc)]
    rw [List.filter_map, List.map_map, List.map_map]
    rfl
  unfold listCustom
  rw [hnodes, husage, ok_bind]
  simp only
  have hit := iterate_all ho hne he (customIter enc map) (fun acc y => (do
        let l ← appliedAt ts (fun x => unwrap (BMap.get map x)) y
        .ok (acc ++ l) : Res (List (Name × List Nat)))) (goOn ts) (fun s y hy => customIter_eq he map s y hy) []
  have hfold := foldlM_collect (appliedAt ts fun x => unwrap (BMap.get map x)) (appliedList ts fun x => (BMap.get map x).getD 0) (visited ts) (by
      intro y hy
      have hall := visited_mem y hy
      refine appliedAt_ok _ _ (allInstances_template ho hne y hall) fun t ht hc s hs => ?_
      obtain ⟨v, hv⟩ := Option.isSome_iff_exists.1 (hmap y hall t ht hc s hs)
      rw [hv]; rfl) []
  rw [visited] at hfold
  rw [hfold, List.nil_append] at hit
  have hnames := applied_names (ts := ts) fun x => (BMap.get map x).getD 0
  unfold visited at hnames
  rw [← bind_assoc, hit, ok_bind, findIndexes_eq _ _ hnames, ok_bind]
  unfold usedTable appliedTable
  rw [List.map_map]
  rfl

/-! ## The unsimplified file -/

theorem traverse_eq {ts : List Template} (ho : Ordered ts) {d : Graph} (hb : Built ts d) (hk : OrderedKnown ts) (fuel : Nat) :
    ∀ (y : Nat × Nat × Name), y.1 < ts.length → y.1 < fuel → ∀ acc,
      traverse d fuel (treeOf ts d y) acc = .ok (acc ++ (instancesIf ts (goOn ts) fuel y.1 y.2.1 y.2.2).flatMap (appliedList ts fun x => x)) := by
  induction fuel with
  | zero => intro y _ h; omega
  | succ fuel ih =>
    intro y hy hlt acc
    have ht : ts[y.1]? = some ts[y.1] := List.getElem?_eq_getElem hy
    obtain ⟨n, es, cs, g1, g2, g3, g4⟩ := hb.ok y.1 _ ht
    unfold traverse instancesIf
    have hid : (treeOf ts d y).nodeId = y.1 := rfl
    have hoff : (treeOf ts d y).offset = y.2.1 := rfl
    rw [hid, g1]
    simp only [g4.custom, goOn, customAt_eq ht]
    rw [List.flatMap_cons]
    by_cases hc : ts[y.1].isCustomGate = true
    · simp only [hc, if_true, Bool.not_true, Bool.false_eq_true, if_false, List.flatMap_nil, List.append_nil]
      rw [g4.ordered, g4.corr, hoff]
      have hm : (ts[y.1].ordered.mapM fun s => (do
          let id ← unwrap (NMap.get (table ts ts[y.1]) s)
          .ok (id + y.2.1) : Res Nat)) = .ok ((orderedIds ts ts[y.1]).map fun s => s + y.2.1) := by
        have hord := hk ts[y.1] (List.mem_of_getElem? ht)
        unfold orderedIds
        revert hord
        generalize ts[y.1].ordered = l
        intro hord
        induction l with
        | nil => rfl
        | cons s l ihl =>
          obtain ⟨v, hv⟩ := Option.isSome_iff_exists.1 ((NMap.get_isSome _ _).2 (hord s (by simp)))
          rw [List.mapM_cons, hv, unwrap_some, ok_bind, ok_bind, ihl fun s' hs' => hord s' (by simp [hs']), ok_bind,
            List.filterMap_cons, hv]
          rfl
      rw [hm, ok_bind]
      simp [appliedList, ht, hc, g4.name]
    · simp only [Bool.not_eq_true] at hc
      simp only [hc, Bool.false_eq_true, if_false, Bool.not_false, if_true]
      have h0 : appliedList ts (fun x => x) (y.1, y.2.1, y.2.2) = [] := by simp [appliedList, ht, hc]
      rw [h0, List.nil_append, edges_eq hb y ht, ok_bind, kidsAt_eq ht]
      unfold kids
      rw [← edgesOf_layout (size ts) (comps ts) (noLoc ts[y.1]) 1 ts[y.1].connexions]
      have hgo : ∀ (l : List Edge) (acc : List (Name × List Nat)),
          (∀ e ∈ l, e ∈ edgesOf (size ts) (comps ts) (noLoc ts[y.1]) 1 ts[y.1].connexions) →
          l.foldlM (fun s e => (do
            let sub ← (treeOf ts d y).goTo d e
            traverse d fuel sub s : Res (List (Name × List Nat)))) acc =
          .ok (acc ++ ((l.map fun e => (e.label, e.goesTo, e.inNumber)).flatMap fun k =>
            instancesIf ts (goOn ts) fuel k.2.1 (y.2.1 + k.2.2) (y.2.2 ++ '.' :: k.1)).flatMap (appliedList ts fun x => x)) := by
        intro l
        induction l with
        | nil => intro acc _; simp [pure, Except.pure]
        | cons e l ihl =>
          intro acc hl
          have hmem : (e.label, e.goesTo) ∈ ts[y.1].connexions := by
            have := List.mem_map_of_mem (f := fun e : Edge => (e.label, e.goesTo, e.inNumber)) (hl e (by simp))
            rw [edgesOf_layout] at this
            exact layout_target this
          have hj := ho y.1 _ ht _ hmem
          simp only at hj
          have hjs : ts[e.goesTo]? = some (ts[e.goesTo]'(by omega)) := List.getElem?_eq_getElem _
          rw [List.foldlM_cons, goTo_eq hb y e hjs, ok_bind,
            ih (e.goesTo, y.2.1 + e.inNumber, y.2.2 ++ '.' :: e.label) (by simp only; omega) (by simp only; omega) acc, ok_bind,
            ihl _ fun e' he' => hl e' (by simp [he'])]
          simp [List.flatMap_append]
      exact hgo _ acc fun e he => he

theorem dagData_eq {ts : List Template} (ho : Ordered ts) (hne : ts ≠ []) {d : Graph} (hb : Built ts d) (hk : OrderedKnown ts) (field : Int)
    (custom : Bool) (hname : custom = true → ∀ t ∈ ts, t.isCustomGate = true → '(' ∈ t.name) {main : Template}
    (hmain : ts[ts.length - 1]? = some main) :
    dagData d field custom = .ok {
      header := {
        field := field
        totalWires := size ts (ts.length - 1) + 1
        publicOutputs := noOut main
        publicInputs := noPub main
        privateInputs := noPriv main
        labels := size ts (ts.length - 1) + 1
        constraints := (allConstraints ts d).length }
      constraints := (allConstraints ts d).map fun c => (c.a, c.b, c.c)
      signals := List.range (size ts (ts.length - 1) + 1)
      custom := if custom then some (usedTable ts, appliedTable ts fun x => x) else none } := by
  obtain ⟨n, es, cs, g1, g2, g3, g4⟩ := hb.ok _ _ hmain
  have hl : d.nodes.getLast? = some n := getLast?_of (by rw [hb.nodes]; exact g1)
  have hlen : 0 < ts.length := List.length_pos_iff.2 hne
  unfold dagData
  rw [constraintSection_eq ho hb hne, ok_bind]
  simp only [hl, g4.outs, g4.pubs, g4.ins, Nat.add_sub_cancel_left]
  cases custom with
  | false => rfl
  | true =>
    have hnodes : (d.nodes.map fun n => (n.name, n.parameters, n.isCustomGate)) = ts.map fun t => (t.name, t.parameters, t.isCustomGate) := by
      apply List.ext_getElem?
      intro i
      rw [List.getElem?_map, List.getElem?_map]
      cases ht : ts[i]? with
      | none =>
        have : ts.length ≤ i := List.getElem?_eq_none_iff.1 ht
        rw [List.getElem?_eq_none_iff.2 (by rw [hb.nodes]; exact this)]
        rfl
      | some t =>
        obtain ⟨n, es, cs, g1, g2, g3, g4⟩ := hb.ok i t ht
        rw [g1]
        simp [g4.name, g4.parameters, g4.custom]
    have husage : customUsage (ts.map fun t => (t.name, t.parameters, t.isCustomGate)) =
        .ok ((gates ts).map (fun t => (baseName t.name, t.parameters)), (gates ts).map Template.name) := by
      rw [customUsage_eq _ (by
        intro n hn hc
        obtain ⟨t, ht, rfl⟩ := List.mem_map.1 hn
        exact hname rfl t ht hc)]
      rw [List.filter_map, List.map_map, List.map_map]
      rfl
    simp only [if_true]
    rw [hnodes, husage, ok_bind]
    simp only
    rw [Tree_new_eq hb hne, ok_bind, hb.nodes,
      traverse_eq ho hb hk ts.length (ts.length - 1, 0, ['m', 'a', 'i', 'n']) (by simp only; omega) (by simp only; omega) [], ok_bind,
      List.nil_append]
    have := applied_names (ts := ts) fun x => x
    unfold visited at this
    rw [findIndexes_eq _ _ this]
    simp only [ok_bind]
    unfold usedTable appliedTable
    rw [List.map_map]
    rfl

end Verif.Dag
