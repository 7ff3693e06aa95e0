import Verif.JsonInLemmas
import Mathlib.Tactic.Ring

/-! Lemmas on `Verif.JsonIn`: names, the order of entries, values. -/

namespace Verif.JsonIn

open Verif.Inputs (Seg render renderSeg Ident SegOk render_inj)

set_option linter.unusedSimpArgs false
set_option linter.unusedVariables false

mutual
/-- No object has two entries with one key. -/
def distinct : J → Prop
  | .sc _ => True
  | .arr l => distinctL l
  | .obj o => (o.toList.map Prod.fst).Nodup ∧ distinctO o

def distinctL : JL → Prop
  | .nil => True
  | .cons j l => distinct j ∧ distinctL l

def distinctO : JO → Prop
  | .nil => True
  | .cons _ j o => distinct j ∧ distinctO o
end

/-- A key that is a name. -/
def KeyOk (k : String) : Prop := k ≠ "" ∧ Ident k

mutual
theorem keysOk_mono {K K' : String → Prop} (h : ∀ k, K k → K' k) : ∀ (j : J), keysOk K j → keysOk K' j
  | .sc _, _ => trivial
  | .arr l, hj => keysOkL_mono h l hj
  | .obj o, hj => keysOkO_mono h o hj

theorem keysOkL_mono {K K' : String → Prop} (h : ∀ k, K k → K' k) : ∀ (l : JL), keysOkL K l → keysOkL K' l
  | .nil, _ => trivial
  | .cons j l, hj => ⟨keysOk_mono h j hj.1, keysOkL_mono h l hj.2⟩

theorem keysOkO_mono {K K' : String → Prop} (h : ∀ k, K k → K' k) : ∀ (o : JO), keysOkO K o → keysOkO K' o
  | .nil, _ => trivial
  | .cons k j o, hj => ⟨h k hj.1, keysOk_mono h j hj.2.1, keysOkO_mono h o hj.2.2⟩
end

/-! ### Paths -/

mutual
theorem leaves_path : ∀ (j : J) (p : List Seg), keysOk KeyOk j → ∀ e ∈ leaves p j, ∃ r, e.1 = p ++ r ∧ ∀ g ∈ r, SegOk g
  | .sc s, p, hk, e, he => by
    simp only [leaves, List.mem_singleton] at he
    exact ⟨[], by simp [he]⟩
  | .arr l, p, hk, e, he => by
    simp only [leaves] at he
    split at he
    · obtain ⟨n, r, _, h1, h2⟩ := leavesL_path l p 0 hk e he
      exact ⟨.idx n :: r, h1, by simpa [SegOk] using h2⟩
    · simp only [List.mem_singleton] at he
      exact ⟨[], by simp [he]⟩
  | .obj o, p, hk, e, he => by
    simp only [leaves] at he
    obtain ⟨k, r, _, h0, h1, h2⟩ := leavesO_path o p hk e he
    exact ⟨.field k :: r, h1, by simpa [SegOk] using ⟨h0.2, h2⟩⟩

theorem leavesE_path : ∀ (j : J) (p : List Seg), keysOk KeyOk j → ∀ e ∈ leavesE p j, ∃ r, e.1 = p ++ r ∧ ∀ g ∈ r, SegOk g
  | .sc s, p, hk, e, he => by
    simp only [leavesE, List.mem_singleton] at he
    exact ⟨[], by simp [he]⟩
  | .arr l, p, hk, e, he => by
    simp only [leavesE] at he
    obtain ⟨n, r, _, h1, h2⟩ := leavesL_path l p 0 hk e he
    exact ⟨.idx n :: r, h1, by simpa [SegOk] using h2⟩
  | .obj o, p, hk, e, he => by
    simp only [leavesE] at he
    obtain ⟨k, r, _, h0, h1, h2⟩ := leavesO_path o p hk e he
    exact ⟨.field k :: r, h1, by simpa [SegOk] using ⟨h0.2, h2⟩⟩

theorem leavesL_path : ∀ (l : JL) (p : List Seg) (i : Nat), keysOkL KeyOk l → ∀ e ∈ leavesL p l i,
    ∃ n r, i ≤ n ∧ e.1 = p ++ .idx n :: r ∧ ∀ g ∈ r, SegOk g
  | .nil, p, i, hk, e, he => by simp [leavesL] at he
  | .cons j l, p, i, hk, e, he => by
    simp only [leavesL, List.mem_append] at he
    rcases he with he | he
    · obtain ⟨r, h1, h2⟩ := leavesE_path j _ hk.1 e he
      exact ⟨i, r, le_refl _, by simp [h1], h2⟩
    · obtain ⟨n, r, h0, h1, h2⟩ := leavesL_path l p (i + 1) hk.2 e he
      exact ⟨n, r, by omega, h1, h2⟩

theorem leavesO_path : ∀ (o : JO) (p : List Seg), keysOkO KeyOk o → ∀ e ∈ leavesO p o,
    ∃ k r, k ∈ o.toList.map Prod.fst ∧ KeyOk k ∧ e.1 = p ++ .field k :: r ∧ ∀ g ∈ r, SegOk g
  | .nil, p, hk, e, he => by simp [leavesO] at he
  | .cons k j o, p, hk, e, he => by
    simp only [leavesO, List.mem_append] at he
    rcases he with he | he
    · obtain ⟨r, h1, h2⟩ := leaves_path j _ hk.2.1 e he
      exact ⟨k, r, by simp [JO.toList], hk.1, by simp [h1], h2⟩
    · obtain ⟨k', r, h0, h3, h1, h2⟩ := leavesO_path o p hk.2.2 e he
      exact ⟨k', r, by simp only [JO.toList, List.map_cons, List.mem_cons]; exact .inr h0, h3, h1, h2⟩
end

mutual
theorem leaves_nodup : ∀ (j : J) (p : List Seg), keysOk KeyOk j → distinct j → ((leaves p j).map Prod.fst).Nodup
  | .sc s, p, hk, hd => by simp [leaves]
  | .arr l, p, hk, hd => by
    simp only [leaves]
    split
    · exact leavesL_nodup l p 0 hk hd
    · simp
  | .obj o, p, hk, hd => by
    simp only [leaves]
    exact leavesO_nodup o p hk hd.1 hd.2

theorem leavesE_nodup : ∀ (j : J) (p : List Seg), keysOk KeyOk j → distinct j → ((leavesE p j).map Prod.fst).Nodup
  | .sc s, p, hk, hd => by simp [leavesE]
  | .arr l, p, hk, hd => by
    simp only [leavesE]
    exact leavesL_nodup l p 0 hk hd
  | .obj o, p, hk, hd => by
    simp only [leavesE]
    exact leavesO_nodup o p hk hd.1 hd.2

theorem leavesL_nodup : ∀ (l : JL) (p : List Seg) (i : Nat), keysOkL KeyOk l → distinctL l →
    ((leavesL p l i).map Prod.fst).Nodup
  | .nil, p, i, hk, hd => by simp [leavesL]
  | .cons j l, p, i, hk, hd => by
    simp only [leavesL, List.map_append]
    rw [List.nodup_append]
    refine ⟨leavesE_nodup j _ hk.1 hd.1, leavesL_nodup l p _ hk.2 hd.2, ?_⟩
    intro a ha b hb hab
    obtain ⟨e, he, rfl⟩ := List.mem_map.1 ha
    obtain ⟨e', he', rfl⟩ := List.mem_map.1 hb
    obtain ⟨r, h1, _⟩ := leavesE_path j _ hk.1 e he
    obtain ⟨n, r', h0, h2, _⟩ := leavesL_path l p _ hk.2 e' he'
    rw [h1, h2] at hab
    simp at hab
    omega

theorem leavesO_nodup : ∀ (o : JO) (p : List Seg), keysOkO KeyOk o → (o.toList.map Prod.fst).Nodup → distinctO o →
    ((leavesO p o).map Prod.fst).Nodup
  | .nil, p, hk, hn, hd => by simp [leavesO]
  | .cons k j o, p, hk, hn, hd => by
    simp only [JO.toList, List.map_cons, List.nodup_cons] at hn
    simp only [leavesO, List.map_append]
    rw [List.nodup_append]
    refine ⟨leaves_nodup j _ hk.2.1 hd.1, leavesO_nodup o p hk.2.2 hn.2 hd.2, ?_⟩
    intro a ha b hb hab
    obtain ⟨e, he, rfl⟩ := List.mem_map.1 ha
    obtain ⟨e', he', rfl⟩ := List.mem_map.1 hb
    obtain ⟨r, h1, _⟩ := leaves_path j _ hk.2.1 e he
    obtain ⟨k', r', h0, _, h2, _⟩ := leavesO_path o p hk.2.2 e' he'
    rw [h1, h2] at hab
    simp at hab
    exact hn.1 (hab.1 ▸ h0)
end

/-- Different paths from the top have different names. -/
theorem names_nodup (o : JO) (hk : keysOkO KeyOk o) (hn : (o.toList.map Prod.fst).Nodup) (hd : distinctO o) :
    ((named (leavesO [] o)).map Prod.fst).Nodup := by
  have h := leavesO_nodup o [] hk hn hd
  have e : (named (leavesO [] o)).map Prod.fst = ((leavesO [] o).map Prod.fst).map text := by
    simp [named, Function.comp_def]
  rw [e]
  refine h.map_on ?_
  intro a ha b hb hab
  obtain ⟨x, hx, rfl⟩ := List.mem_map.1 ha
  obtain ⟨y, hy, rfl⟩ := List.mem_map.1 hb
  obtain ⟨k, r, _, h0, h1, h2⟩ := leavesO_path o [] hk x hx
  obtain ⟨k', r', _, h0', h1', h2'⟩ := leavesO_path o [] hk y hy
  rw [h1, h1'] at hab ⊢
  simp only [List.nil_append, text] at hab ⊢
  obtain ⟨ha, hb⟩ := render_inj h0.2 h0'.2 h2 h2' hab
  rw [ha, hb]

/-! ### The parsers -/

theorem leavesO_flatMap (p : List Seg) : ∀ (o : JO), leavesO p o = o.toList.flatMap fun e => leaves (p ++ [.field e.1]) e.2
  | .nil => rfl
  | .cons k j o => by simp only [leavesO, JO.toList, List.flatMap_cons, leavesO_flatMap p o]

theorem cppDomO_perm : ∀ (o acc : JO), ((acc.toList ++ o.toList).map Prod.fst).Nodup →
    (cppDomO acc o).toList.Perm (acc.toList ++ o.toList.map fun e => (e.1, cppDom e.2))
  | .nil, acc, _ => by simp [cppDomO, JO.toList]
  | .cons k j o, acc, h => by
    simp only [JO.toList] at h
    have hk : k ∉ acc.toList.map Prod.fst := by
      intro hm
      rw [List.map_append, List.nodup_append] at h
      exact h.2.2 k hm k (by simp) rfl
    have hp := put_perm k (cppDom j) acc hk
    have h' : (((acc.put k (cppDom j)).toList ++ o.toList).map Prod.fst).Nodup := by
      have : (((acc.put k (cppDom j)).toList ++ o.toList).map Prod.fst).Perm ((acc.toList ++ (k, j) :: o.toList).map Prod.fst) := by
        simp only [List.map_append, List.map_cons]
        refine ((hp.map Prod.fst).append_right _).trans ?_
        simp only [List.map_cons, List.cons_append]
        exact List.perm_middle.symm
      exact this.nodup_iff.2 h
    have := cppDomO_perm o _ h'
    simp only [cppDomO, JO.toList, List.map_cons]
    refine this.trans ((hp.append_right _).trans ?_)
    simp only [List.cons_append]
    exact List.perm_middle.symm

mutual
theorem hasObj_cppDom : ∀ (j : J), hasObj (cppDom j) = hasObj j
  | .sc _ => rfl
  | .obj _ => rfl
  | .arr l => by simp only [cppDom, hasObj]; exact hasObjL_cppDom l

theorem hasObjL_cppDom : ∀ (l : JL), hasObjL (cppDomL l) = hasObjL l
  | .nil => rfl
  | .cons j l => by simp only [cppDomL, hasObjL, hasObj_cppDom j, hasObjL_cppDom l]
end

mutual
theorem cppDom_plain : ∀ (j : J), hasObj j = false → cppDom j = j
  | .sc _, _ => rfl
  | .obj _, h => by simp [hasObj] at h
  | .arr l, h => by simp only [cppDom]; rw [cppDomL_plain l h]

theorem cppDomL_plain : ∀ (l : JL), hasObjL l = false → cppDomL l = l
  | .nil, _ => rfl
  | .cons j l, h => by
    simp only [hasObjL, Bool.or_eq_false_iff] at h
    simp only [cppDomL]
    rw [cppDom_plain j h.1, cppDomL_plain l h.2]
end

mutual
theorem leaves_cppDom : ∀ (j : J) (p : List Seg), distinct j → (leaves p (cppDom j)).Perm (leaves p j)
  | .sc _, p, _ => List.Perm.refl _
  | .obj o, p, h => by
    simp only [cppDom, leaves]
    exact leavesO_cppDom o p h.1 h.2
  | .arr l, p, h => by
    simp only [cppDom, leaves, hasObjL_cppDom]
    split
    · exact leavesL_cppDom l p 0 h
    · rename_i hn
      rw [cppDomL_plain l (by simpa using hn)]

theorem leavesE_cppDom : ∀ (j : J) (p : List Seg), distinct j → (leavesE p (cppDom j)).Perm (leavesE p j)
  | .sc _, p, _ => List.Perm.refl _
  | .obj o, p, h => by
    simp only [cppDom, leavesE]
    exact leavesO_cppDom o p h.1 h.2
  | .arr l, p, h => by
    simp only [cppDom, leavesE]
    exact leavesL_cppDom l p 0 h

theorem leavesL_cppDom : ∀ (l : JL) (p : List Seg) (i : Nat), distinctL l → (leavesL p (cppDomL l) i).Perm (leavesL p l i)
  | .nil, p, i, _ => List.Perm.refl _
  | .cons j l, p, i, h => by
    simp only [cppDomL, leavesL]
    exact (leavesE_cppDom j _ h.1).append (leavesL_cppDom l p _ h.2)

theorem leavesO_cppDom : ∀ (o : JO) (p : List Seg), (o.toList.map Prod.fst).Nodup → distinctO o →
    (leavesO p (cppDomO .nil o)).Perm (leavesO p o)
  | o, p, hn, hd => by
    rw [leavesO_flatMap, leavesO_flatMap]
    have := (cppDomO_perm o .nil (by simpa [JO.toList] using hn)).flatMap_right fun e => leaves (p ++ [.field e.1]) e.2
    refine this.trans ?_
    simp only [JO.toList, List.nil_append, List.flatMap_map]
    exact leavesO_each o p hd

theorem leavesO_each : ∀ (o : JO) (p : List Seg), distinctO o →
    (o.toList.flatMap fun e => leaves (p ++ [.field e.1]) (cppDom e.2)).Perm
      (o.toList.flatMap fun e => leaves (p ++ [.field e.1]) e.2)
  | .nil, p, _ => List.Perm.refl _
  | .cons k j o, p, h => by
    simp only [JO.toList, List.flatMap_cons]
    exact (leaves_cppDom j _ h.1).append (leavesO_each o p h.2)
end

mutual
theorem keysOk_cppDom {K : String → Prop} : ∀ (j : J), keysOk K j → keysOk K (cppDom j)
  | .sc _, _ => trivial
  | .arr l, h => keysOkL_cppDom l h
  | .obj o, h => keysOkO_cppDom o .nil trivial h

theorem keysOkL_cppDom {K : String → Prop} : ∀ (l : JL), keysOkL K l → keysOkL K (cppDomL l)
  | .nil, _ => trivial
  | .cons j l, h => ⟨keysOk_cppDom j h.1, keysOkL_cppDom l h.2⟩

theorem keysOkO_cppDom {K : String → Prop} : ∀ (o acc : JO), keysOkO K acc → keysOkO K o → keysOkO K (cppDomO acc o)
  | .nil, acc, ha, _ => ha
  | .cons k j o, acc, ha, h => keysOkO_cppDom o _ (keysOkO_put k _ h.1 (keysOk_cppDom j h.2.1) acc ha) h.2.2

theorem keysOkO_put {K : String → Prop} (k : String) (v : J) (hk : K k) (hv : keysOk K v) : ∀ (m : JO), keysOkO K m →
    keysOkO K (m.put k v)
  | .nil, _ => ⟨hk, hv, trivial⟩
  | .cons k' v' m, h => by
    simp only [JO.put]
    split
    · exact ⟨hk, hv, h.2.2⟩
    · split
      · exact ⟨hk, hv, h⟩
      · exact ⟨h.1, h.2.1, keysOkO_put k v hk hv m h.2.2⟩
end

theorem toList_inj : ∀ {a b : JO}, a.toList = b.toList → a = b
  | .nil, .nil, _ => rfl
  | .nil, .cons _ _ _, h => by simp [JO.toList] at h
  | .cons _ _ _, .nil, h => by simp [JO.toList] at h
  | .cons k j o, .cons k' j' o', h => by
    simp only [JO.toList, List.cons.injEq, Prod.mk.injEq] at h
    rw [h.1.1, h.1.2, toList_inj h.2]

mutual
theorem jsDom_eq : ∀ (j : J), distinct j → jsDom j = j
  | .sc _, _ => rfl
  | .arr l, h => by simp only [jsDom]; rw [jsDomL_eq l h]
  | .obj o, h => by
    simp only [jsDom]
    rw [toList_inj (jsDomO_eq o .nil (by simpa [JO.toList] using h.1) h.2 : (jsDomO .nil o).toList = o.toList)]

theorem jsDomL_eq : ∀ (l : JL), distinctL l → jsDomL l = l
  | .nil, _ => rfl
  | .cons j l, h => by simp only [jsDomL]; rw [jsDom_eq j h.1, jsDomL_eq l h.2]

theorem jsDomO_eq : ∀ (o acc : JO), ((acc.toList ++ o.toList).map Prod.fst).Nodup → distinctO o →
    (jsDomO acc o).toList = acc.toList ++ o.toList
  | .nil, acc, _, _ => by simp [jsDomO, JO.toList]
  | .cons k j o, acc, h, hd => by
    simp only [JO.toList] at h
    have hk : k ∉ acc.toList.map Prod.fst := by
      intro hm
      rw [List.map_append, List.nodup_append] at h
      exact h.2.2 k hm k (by simp) rfl
    have e := set_append k j acc hk
    simp only [jsDomO, JO.toList]
    rw [jsDom_eq j hd.1, jsDomO_eq o _ (by rw [e]; simpa using h) hd.2, e]
    simp
end

/-! ### Values -/

theorem cppItems_iff (q : Int) : ∀ (m : JO) (items : List (String × List Int)), cppItems q m = some items ↔
    List.Forall₂ (fun e i => e.1 = i.1 ∧ cppVals q e.2 = some i.2) m.toList items
  | .nil, items => by
    simp only [cppItems, JO.toList, List.forall₂_nil_left_iff, Option.some.injEq]
    exact eq_comm
  | .cons k j o, items => by
    simp only [cppItems, JO.toList]
    constructor
    · intro h
      cases hv : cppVals q j with
      | none => rw [hv] at h; cases h
      | some v =>
        rw [hv] at h
        simp only [Option.map_eq_some_iff] at h
        obtain ⟨r, hr, rfl⟩ := h
        exact .cons ⟨rfl, hv⟩ ((cppItems_iff q o r).1 hr)
    · intro h
      cases h with
      | cons h1 h2 =>
        rename_i i is
        obtain ⟨n, v⟩ := i
        simp only at h1
        rw [h1.2, (cppItems_iff q o is).2 h2, h1.1]
        rfl

theorem jsItems_iff (q : Int) : ∀ (m : JO) (items : List (String × List Int)), jsItems q m = some items ↔
    List.Forall₂ (fun e i => e.1 = i.1 ∧ jsVals q (flat e.2) = some i.2) m.toList items
  | .nil, items => by
    simp only [jsItems, JO.toList, List.forall₂_nil_left_iff, Option.some.injEq]
    exact eq_comm
  | .cons k j o, items => by
    simp only [jsItems, JO.toList]
    constructor
    · intro h
      cases hv : jsVals q (flat j) with
      | none => rw [hv] at h; cases h
      | some v =>
        rw [hv] at h
        simp only [Option.map_eq_some_iff] at h
        obtain ⟨r, hr, rfl⟩ := h
        exact .cons ⟨rfl, hv⟩ ((jsItems_iff q o r).1 hr)
    · intro h
      cases h with
      | cons h1 h2 =>
        rename_i i is
        obtain ⟨n, v⟩ := i
        simp only at h1
        rw [h1.2, (jsItems_iff q o is).2 h2, h1.1]
        rfl

/-- The values of a list of scalars. -/
def scVals (f : Sc → Option Int) : List J → Option (List Int)
  | [] => some []
  | .sc s :: l =>
    match f s with
    | none => none
    | some z => (scVals f l).map fun r => z :: r
  | _ :: _ => none

theorem scVals_append (f : Sc → Option Int) : ∀ (a b : List J), scVals f (a ++ b) =
    match scVals f a with
    | none => none
    | some x => (scVals f b).map fun y => x ++ y
  | [], b => by simp [scVals]
  | .sc s :: a, b => by
    simp only [List.cons_append, scVals]
    cases f s with
    | none => rfl
    | some z =>
      simp only
      rw [scVals_append f a b]
      cases scVals f a with
      | none => rfl
      | some x => cases scVals f b <;> rfl
  | .arr _ :: a, b => rfl
  | .obj _ :: a, b => rfl

mutual
theorem cppVals_flat (q : Int) : ∀ (j : J), cppVals q j = scVals (fun s => (cppNum s).map (· % q)) (flat j)
  | .sc s => by
    simp only [cppVals, flat, scVals]
    cases cppNum s <;> rfl
  | .obj o => rfl
  | .arr l => by simp only [cppVals, flat]; exact cppValsL_flat q l

theorem cppValsL_flat (q : Int) : ∀ (l : JL), cppValsL q l = scVals (fun s => (cppNum s).map (· % q)) (flatL l)
  | .nil => rfl
  | .cons j l => by
    simp only [cppValsL, flatL]
    rw [scVals_append, ← cppVals_flat q j, ← cppValsL_flat q l]
    cases cppVals q j <;> rfl
end

theorem jsVals_flat (q : Int) : ∀ (l : List J), jsVals q l = scVals (fun s => (jsNum s).map (jsNormal q)) l
  | [] => rfl
  | .sc s :: l => by
    simp only [jsVals, scVals]
    rw [jsVals_flat q l]
    cases jsNum s <;> rfl
  | .arr _ :: l => rfl
  | .obj _ :: l => rfl

theorem scVals_rel {f g : Sc → Option Int} (h : ∀ s a b, f s = some a → g s = some b → a = b) : ∀ (l : List J) {x y : List Int},
    scVals f l = some x → scVals g l = some y → x = y
  | [], x, y, hx, hy => by simp only [scVals, Option.some.injEq] at hx hy; rw [← hx, hy]
  | .sc s :: l, x, y, hx, hy => by
    simp only [scVals] at hx hy
    cases hf : f s with
    | none => rw [hf] at hx; cases hx
    | some a =>
      cases hg : g s with
      | none => rw [hg] at hy; cases hy
      | some b =>
        rw [hf] at hx
        rw [hg] at hy
        simp only [Option.map_eq_some_iff] at hx hy
        obtain ⟨x', hx', rfl⟩ := hx
        obtain ⟨y', hy', rfl⟩ := hy
        rw [h s a b hf hg, scVals_rel h l hx' hy']
  | .arr _ :: l, x, y, hx, hy => by simp [scVals] at hx
  | .obj _ :: l, x, y, hx, hy => by simp [scVals] at hx

theorem jsNormal_eq {q : Int} (hq : 0 < q) (z : Int) : jsNormal q z = z % q := by
  unfold jsNormal
  have h1 : z = q * Int.tdiv z q + Int.tmod z q := (Int.mul_tdiv_add_tmod z q).symm
  have h2 : Int.tmod z q < q := Int.tmod_lt_of_pos z hq
  have h3 : -q < Int.tmod z q := by
    have := Int.lt_tmod_of_pos z hq
    exact this
  generalize Int.tmod z q = r at *
  generalize Int.tdiv z q = t at *
  subst h1
  split
  · rw [show q * t + r = (r + q) + q * (t - 1) by ring, Int.add_mul_emod_self_left, Int.emod_eq_of_lt (by omega) (by omega)]
  · rw [Int.add_comm, Int.add_mul_emod_self_left, Int.emod_eq_of_lt (by omega) (by omega)]

end Verif.JsonIn
