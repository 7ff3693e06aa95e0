import Verif.AddressLemmas

/-! # Where the constraints of each component end up, and what the symbol file says about them -/

set_option linter.unusedSectionVars false
set_option linter.unusedSimpArgs false

namespace Verif.Dag
open Verif.ModArith (Res Fail)
open Verif.Algebra
open Verif.Props.Algebra (ok_bind GoodRenaming)

variable {p : Nat}

/-- A constraint with its signals renamed. -/
def rename {K K' : Type} (f : K → K') (c : Constraint K) : Constraint K' :=
  ⟨c.a.map fun e => (f e.1, e.2), c.b.map fun e => (f e.1, e.2), c.c.map fun e => (f e.1, e.2)⟩

theorem corrMap_inj {K K' : Type} [DecidableEq K] [Inhabited K] [DecidableEq K'] [Inhabited K'] {k : Constraint K} {map : K → Option K'}
    (hg : GoodRenaming k map) {x y : K} (hx : k.Occurs x) (hy : k.Occurs y) (h : corrMap map x = corrMap map y) : x = y := by
  unfold corrMap at h
  by_cases h1 : x = default
  · by_cases h2 : y = default
    · rw [h1, h2]
    · obtain ⟨z, hz, hzd⟩ := hg.defined y hy h2
      rw [if_pos h1, if_neg h2, hz] at h
      exact absurd h.symm hzd
  · obtain ⟨w, hw, hwd⟩ := hg.defined x hx h1
    by_cases h2 : y = default
    · rw [if_neg h1, if_pos h2, hw] at h
      exact absurd h hwd
    · obtain ⟨z, hz, hzd⟩ := hg.defined y hy h2
      rw [if_neg h1, if_neg h2, hw, hz] at h
      simp only [Option.getD_some] at h
      subst h
      exact hg.inj x y w hx hy hw hz

theorem applyCorrespondence_eq {K K' : Type} [DecidableEq K] [Inhabited K] [DecidableEq K'] [Inhabited K'] (k : Constraint K)
    (ha : k.a.WF) (hb : k.b.WF) (hc : k.c.WF) (map : K → Option K') (hg : GoodRenaming k map) :
    k.applyCorrespondence map = .ok (rename (corrMap map) k) := by
  have key : ∀ m : CMap K, m.WF → (∀ x ∈ m.keys, k.Occurs x) →
      rawCorrespondence m map = .ok (m.map (fun e => (corrMap map e.1, e.2))) := by
    intro m hw hsub
    rw [rawCorrespondence_ok m map, foldl_insert_rename (corrMap map) m [] hw
      (fun x hx y hy => corrMap_inj hg (hsub x hx) (hsub y hy)) (by simp), List.nil_append]
    intro x hx hxd
    obtain ⟨y, hy, _⟩ := hg.defined x (hsub x hx) hxd
    rw [hy]; rfl
  simp only [Constraint.applyCorrespondence, key k.a ha (fun x hx => Or.inl hx), key k.b hb (fun x hx => Or.inr (Or.inl hx)),
    key k.c hc (fun x hx => Or.inr (Or.inr hx)), ok_bind, rename]

theorem good_renaming {ts : List Template} (h : WellNamed ts) {i : Nat} {t : Template} (ht : ts[i]? = some t) {c : Constraint Name}
    (hc : GoodConstraint p ts t c) : GoodRenaming c fun s => NMap.get (table ts t) s := by
  refine ⟨fun x hx hxd => ?_, fun x y z _ _ hx hy => table_inj h ht hx hy⟩
  obtain ⟨e, he, rfl⟩ := (occurs_iff c x).1 hx
  rcases hc.known e he with h0 | hk
  · exact absurd h0 hxd
  · obtain ⟨y, hy⟩ := Option.isSome_iff_exists.1 ((NMap.get_isSome _ _).2 ((known_iff ts t e.1).2 hk))
    exact ⟨y, hy, by have := (table_range h ht hy).1; simp only [Nat.default_eq_zero]; omega⟩

/-- The cleaned constraints of an instance under its global numbers. -/
def placed (ts : List Template) (t : Template) (o : Nat) : List C :=
  ((t.constraints.map Constraint.removeZeros).filter fun c => !c.isEmpty).map (rename (global ts t o))

theorem removeZeros_rename {K K' : Type} [DecidableEq K] [Inhabited K] [DecidableEq K'] [Inhabited K'] (f : K → K') (c : Constraint K) :
    (rename f c).removeZeros = rename f c.removeZeros := by
  unfold rename Constraint.removeZeros Algebra.removeZeros
  simp only [List.filter_map]
  rfl

theorem isEmpty_rename {K K' : Type} [DecidableEq K] [Inhabited K] [DecidableEq K'] [Inhabited K'] (f : K → K') (c : Constraint K) :
    (rename f c).isEmpty = c.isEmpty := by
  unfold rename Constraint.isEmpty
  simp

theorem map_occurs {c : Constraint Name} {K' : Type} {f g : Name → K'} (h : ∀ x, c.Occurs x → f x = g x) : rename f c = rename g c := by
  have key : ∀ m : CMap Name, (∀ x ∈ m.keys, c.Occurs x) → m.map (fun e => (f e.1, e.2)) = m.map fun e => (g e.1, e.2) := by
    intro m hm
    apply List.map_congr_left
    intro e he
    rw [h e.1 (hm _ (List.mem_map_of_mem (f := Prod.fst) he))]
  unfold rename
  rw [key c.a fun x hx => Or.inl hx, key c.b fun x hx => Or.inr (Or.inl hx), key c.c fun x hx => Or.inr (Or.inr hx)]

theorem rename_rename {K K' K'' : Type} (f : K → K') (g : K' → K'') (c : Constraint K) : rename g (rename f c) = rename (fun x => g (f x)) c := by
  unfold rename
  simp only [List.map_map]
  rfl

theorem shifted_eq {ts : List Template} (h : Program p ts) {d : Graph} (hb : Built ts d) {y : Nat × Nat × Name} {t : Template}
    (ht : ts[y.1]? = some t) : shifted d y = placed ts t y.2.1 := by
  obtain ⟨cs, h1, h2⟩ := consAt_eq hb ht
  have hmem := List.mem_of_getElem? ht
  have hgood := h.constraints t hmem
  have hnum : numbered ts t = .ok (t.constraints.map (rename (corrMap fun s => NMap.get (table ts t) s))) := by
    unfold numbered
    exact mapM_ok_of _ _ _ fun c hc => applyCorrespondence_eq c (hgood c hc).nodup.1 (hgood c hc).nodup.2.1 (hgood c hc).nodup.2.2 _
      (good_renaming h.named ht (hgood c hc))
  rw [h1] at hnum; injection hnum with hnum
  unfold shifted placed
  rw [h2, hnum]
  unfold cleaned
  have hcomm : (t.constraints.map (rename (corrMap fun s => NMap.get (table ts t) s))).map Constraint.removeZeros =
      (t.constraints.map Constraint.removeZeros).map (rename (corrMap fun s => NMap.get (table ts t) s)) := by
    rw [List.map_map, List.map_map]
    apply List.map_congr_left
    intro c _
    exact removeZeros_rename _ c
  rw [hcomm, List.filter_map, List.map_map]
  have hf : ((fun c : C => !c.isEmpty) ∘ rename (corrMap fun s => NMap.get (table ts t) s)) = fun c : Constraint Name => !c.isEmpty := by
    funext c
    simp only [Function.comp_apply, isEmpty_rename]
  rw [hf]
  apply List.map_congr_left
  intro c hc
  obtain ⟨c0, hc0, rfl⟩ := List.mem_map.1 (List.mem_filter.1 hc).1
  have hg := hgood c0 hc0
  have hocc : ∀ x, c0.removeZeros.Occurs x → c0.Occurs x := by
    rintro x (hx | hx | hx)
    · exact Or.inl (keys_removeZeros_sub hx)
    · exact Or.inr (Or.inl (keys_removeZeros_sub hx))
    · exact Or.inr (Or.inr (keys_removeZeros_sub hx))
  have hren := good_renaming h.named ht hg
  simp only [Function.comp_apply]
  have hoff : ∀ m : CMap Name, m.WF → (∀ x ∈ m.keys, c0.Occurs x) →
      rawOffset (m.map fun e => (corrMap (fun s => NMap.get (table ts t) s) e.1, e.2)) y.2.1 =
        m.map fun e => (offsetMap y.2.1 (corrMap (fun s => NMap.get (table ts t) s) e.1), e.2) := by
    intro m hw hsub
    rw [rawOffset_eq _ (wf_rename _ hw fun x hx y hy => corrMap_inj hren (hsub x hx) (hsub y hy)), List.map_map]
    rfl
  have happ : (rename (corrMap fun s => NMap.get (table ts t) s) c0.removeZeros).applyOffset y.2.1 =
      rename (fun x => offsetMap y.2.1 (corrMap (fun s => NMap.get (table ts t) s) x)) c0.removeZeros := by
    simp only [rename, Constraint.applyOffset]
    have hwa : (c0.removeZeros).a.WF := Algebra.wf_removeZeros (m := c0.a) hg.nodup.1
    have hwb : (c0.removeZeros).b.WF := Algebra.wf_removeZeros (m := c0.b) hg.nodup.2.1
    have hwc : (c0.removeZeros).c.WF := Algebra.wf_removeZeros (m := c0.c) hg.nodup.2.2
    rw [hoff _ hwa fun x hx => hocc x (Or.inl hx), hoff _ hwb fun x hx => hocc x (Or.inr (Or.inl hx)),
      hoff _ hwc fun x hx => hocc x (Or.inr (Or.inr hx))]
  rw [happ]
  apply map_occurs
  intro x hx
  unfold global corrMap offsetMap
  by_cases hx0 : x = []
  · subst hx0
    simp [default]
  · have hxd : x ≠ default := hx0
    obtain ⟨z, hz, hzd⟩ := hren.defined x (hocc x hx) hxd
    have hz0 : z ≠ 0 := hzd
    rw [if_neg hx0, if_neg hxd, hz]
    simp [hz, hz0]

/-- Subcomponents of an instance are instances. -/
theorem instances_child {ts : List Template} (ho : Ordered ts) (fuel : Nat) : ∀ (i o : Nat) (path : Name), i < ts.length → i < fuel →
    ∀ y ∈ instances ts fuel i o path, ∀ k ∈ kidsAt ts y.1, (k.2.1, y.2.1 + k.2.2, y.2.2 ++ '.' :: k.1) ∈ instances ts fuel i o path := by
  induction fuel with
  | zero => intro i o path _ h; omega
  | succ fuel ih =>
    intro i o path hi hlt y hy k hk
    have ht : ts[i]? = some ts[i] := List.getElem?_eq_getElem hi
    unfold instances at hy ⊢
    rcases List.mem_cons.1 hy with rfl | hy
    · refine List.mem_cons_of_mem _ (List.mem_flatMap.2 ⟨k, hk, ?_⟩)
      rw [kidsAt_eq ht] at hk
      have := ho i _ ht _ (layout_target hk)
      simp only at this
      cases fuel with
      | zero => omega
      | succ fuel => simp [instances]
    · rw [List.mem_flatMap] at hy
      obtain ⟨k', hk', hy⟩ := hy
      refine List.mem_cons_of_mem _ (List.mem_flatMap.2 ⟨k', hk', ?_⟩)
      rw [kidsAt_eq ht] at hk'
      have := ho i _ ht _ (layout_target hk')
      simp only at this
      exact ih _ _ _ (by omega) (by omega) y hy k hk

theorem symLines_mem {ts : List Template} {y : Nat × Nat × Name} {k : Nat} {s : Name} (h : (namesAt ts y.1)[k]? = some s) :
    (⟨(y.2.1 + k + 1 : Nat), (y.2.1 + k + 1 : Nat), y.1, y.2.2 ++ '.' :: s⟩ : SymElem) ∈ symLines ts y := by
  unfold symLines
  refine List.mem_map.2 ⟨(s, y.2.1 + k + 1), ?_, rfl⟩
  rw [List.mem_zipIdx_iff_le_and_getElem?_sub]
  refine ⟨by simp only; omega, ?_⟩
  simp only
  rw [show y.2.1 + k + 1 - (y.2.1 + 1) = k by omega]
  exact h

/-- The symbol file has, for every name a component's constraints may use, a line with the number used there. -/
theorem sym_global {ts : List Template} (h : WellNamed ts) (hne : ts ≠ []) {y : Nat × Nat × Name} (hy : y ∈ allInstances ts) {t : Template}
    (ht : ts[y.1]? = some t) {s : Name} (hs : Known ts t s) (hs0 : s ≠ []) :
    ∃ l ∈ (allInstances ts).flatMap (symLines ts), l.symbol = y.2.2 ++ '.' :: s ∧ l.original = global ts t y.2.1 s := by
  have hmem := List.mem_of_getElem? ht
  rcases hs with hl | ⟨c, hc, x, hx, rfl⟩
  · obtain ⟨k, hk⟩ := List.mem_iff_getElem?.1 hl
    refine ⟨_, List.mem_flatMap.2 ⟨y, hy, symLines_mem (k := k) (s := s) (by rw [namesAt_eq ht]; exact hk)⟩, rfl, ?_⟩
    simp only [global, if_neg hs0, get_local h hmem hk, Option.getD_some]
    congr 1; omega
  · obtain ⟨k, hk⟩ := List.mem_iff_getElem?.1 hx
    have : (c.1, c.2) ∈ (kids ts t).map fun k => (k.1, k.2.1) := by
      unfold kids
      have : ∀ (o : Nat) (cs : List (Name × Nat)), (layout (size ts) o cs).map (fun k => (k.1, k.2.1)) = cs := by
        intro o cs
        induction cs generalizing o with
        | nil => rfl
        | cons c cs ih => simp [layout, ih]
      rw [this]
      exact hc
    obtain ⟨⟨l, j, start⟩, hkid, he⟩ := List.mem_map.1 this
    simp only [Prod.mk.injEq] at he
    obtain ⟨rfl, rfl⟩ := he
    have hlen : 0 < ts.length := List.length_pos_of_ne_nil hne
    have hchild := instances_child h.order ts.length (ts.length - 1) 0 ['m', 'a', 'i', 'n'] (by omega) (by omega) y hy (c.1, c.2, start)
      (by rw [kidsAt_eq ht]; exact hkid)
    refine ⟨_, List.mem_flatMap.2 ⟨_, hchild, symLines_mem (k := k) (s := x) hk⟩, by simp, ?_⟩
    simp only [global, if_neg hs0, get_child h hmem hkid hk, Option.getD_some]
    congr 1; omega

end Verif.Dag
