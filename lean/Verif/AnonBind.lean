import Verif.AnonClean
import Mathlib.Data.List.Sort
import Mathlib.Data.List.Nodup
import Mathlib.Data.List.Forall2

/-!
The assignment of expressions to the inputs of an anonymous component is the one asked for.
-/

namespace Verif.Anon

set_option linter.unusedSimpArgs false
set_option linter.unusedVariables false

theorem insert_keys {α : Type} (k : Nat) (v : α) (l : List (Nat × α)) (h : k ∉ l.map (·.1)) :
    (insert k v l).Perm ((k, v) :: l) := by
  induction l with
  | nil => exact List.Perm.refl _
  | cons a l ih =>
    obtain ⟨k', v'⟩ := a
    simp only [List.map_cons, List.mem_cons, not_or] at h
    simp only [insert]
    split
    · exact List.Perm.refl _
    · rw [if_neg h.1]
      exact ((ih h.2).cons _).trans (List.Perm.swap _ _ _)

theorem insert_len {α : Type} (k : Nat) (v : α) (l : List (Nat × α)) (h : k ∈ l.map (·.1))
    (hs : (l.map (·.1)).Pairwise (· < ·)) : (insert k v l).length = l.length := by
  induction l with
  | nil => cases h
  | cons a l ih =>
    obtain ⟨k', v'⟩ := a
    simp only [List.map_cons, List.pairwise_cons] at hs
    simp only [insert]
    split
    · rename_i hlt
      simp only [List.map_cons, List.mem_cons] at h
      rcases h with h | h
      · omega
      · have := hs.1 _ h; omega
    · split
      · rfl
      · rename_i h1 h2
        simp only [List.map_cons, List.mem_cons] at h
        rcases h with h | h
        · exact absurd h h2
        · simp [ih h hs.2]

theorem insert_sorted {α : Type} (k : Nat) (v : α) (l : List (Nat × α))
    (hs : (l.map (·.1)).Pairwise (· < ·)) : ((insert k v l).map (·.1)).Pairwise (· < ·) := by
  induction l with
  | nil => simp [insert]
  | cons a l ih =>
    obtain ⟨k', v'⟩ := a
    have hs' := hs
    simp only [List.map_cons, List.pairwise_cons] at hs
    simp only [insert]
    split
    · rename_i hlt
      simp only [List.map_cons, List.pairwise_cons, List.mem_cons]
      refine ⟨?_, hs⟩
      rintro x (rfl | hx)
      · exact hlt
      · exact lt_trans hlt (hs.1 x hx)
    · split
      · rename_i h1 h2
        subst h2
        simpa using hs
      · rename_i h1 h2
        simp only [List.map_cons, List.pairwise_cons]
        refine ⟨?_, ih hs.2⟩
        intro x hx
        obtain ⟨y, hy, rfl⟩ := List.mem_map.mp hx
        rcases insert_mem k v l y hy with rfl | hy
        · simp only; omega
        · exact hs.1 _ (List.mem_map_of_mem hy)

theorem toMap_spec {α : Type} (l : List (Nat × α)) : ∀ m : List (Nat × α),
    (m.map (·.1)).Pairwise (· < ·) →
    ((l.foldl (fun m e => insert e.1 e.2 m) m).map (·.1)).Pairwise (· < ·) ∧
    (l.foldl (fun m e => insert e.1 e.2 m) m).length ≤ l.length + m.length ∧
    ((l.foldl (fun m e => insert e.1 e.2 m) m).length = l.length + m.length ∨
        ((l ++ m).map (·.1)).Nodup →
      (l.foldl (fun m e => insert e.1 e.2 m) m).Perm (l ++ m)) := by
  induction l with
  | nil => intro m hs; exact ⟨hs, by simp, fun _ => List.Perm.refl _⟩
  | cons a l ih =>
    obtain ⟨k, v⟩ := a
    intro m hs
    obtain ⟨h1, h2, h3⟩ := ih (insert k v m) (insert_sorted k v m hs)
    have hlen : (insert k v m).length ≤ m.length + 1 := by
      by_cases hk : k ∈ m.map (·.1)
      · rw [insert_len k v m hk hs]; omega
      · rw [(insert_keys k v m hk).length_eq]; simp
    refine ⟨h1, ?_, ?_⟩
    · simp only [List.foldl_cons, List.length_cons]; omega
    · intro hor
      simp only [List.foldl_cons, List.length_cons] at hor ⊢
      have hk : k ∉ m.map (·.1) := by
        intro hk
        rcases hor with h | h
        · have := insert_len k v m hk hs
          omega
        · simp only [List.cons_append, List.map_cons, List.nodup_cons, List.map_append,
            List.mem_append, not_or] at h
          exact h.1.2 hk
      have hp := insert_keys k v m hk
      have hp2 : (l ++ insert k v m).Perm ((k, v) :: l ++ m) :=
        (List.Perm.append_left l hp).trans List.perm_middle
      refine (h3 ?_).trans hp2
      rcases hor with h | h
      · left; rw [hp.length_eq]; simp only [List.length_cons]; omega
      · right; exact (hp2.map _).nodup_iff.mpr h

theorem keys_len {α : Type} {l : List (Nat × α)} : (toMap l).length ≤ l.length := by
  have := (toMap_spec l [] List.Pairwise.nil).2.1
  simpa [toMap] using this

theorem toMap_perm {α : Type} {l : List (Nat × α)}
    (h : (toMap l).length = l.length ∨ (l.map (·.1)).Nodup) : (toMap l).Perm l := by
  have := (toMap_spec l [] List.Pairwise.nil).2.2 (by simpa [toMap] using h)
  simpa [toMap] using this

theorem toMap_sorted {α : Type} (l : List (Nat × α)) : ((toMap l).map (·.1)).Pairwise (· < ·) :=
  (toMap_spec l [] List.Pairwise.nil).1

theorem sorted_unique {l : List Nat} (tm : Templ) (hp : l.Perm tm.inputs)
    (hs : l.Pairwise (· < ·)) : l = ordered tm := by
  have h1 : l.Pairwise (· ≤ ·) := hs.imp (fun h => Nat.le_of_lt h)
  have h2 : (ordered tm).Pairwise (· ≤ ·) := List.pairwise_insertionSort _ _
  have h3 : l.Perm (ordered tm) := hp.trans (List.perm_insertionSort _ _).symm
  exact h3.eq_of_pairwise (fun a b _ _ h1 h2 => by omega) h1 h2

theorem mapM_of {α : Type} (f : Nat → Option α) (l : List (Nat × α)) (h : ∀ x ∈ l, f x.1 = some x.2) :
    (l.map (·.1)).mapM (fun i => (f i).map fun v => (i, v)) = some l := by
  induction l with
  | nil => rfl
  | cons a l ih =>
    have h0 := h a List.mem_cons_self
    have := ih (fun x hx => h x (List.mem_cons_of_mem _ hx))
    simp only [List.map_cons, List.mapM_cons, h0, this]
    rfl

theorem zip_idx {α : Type} {ks : List Nat} {vals : List α} (hn : ks.Nodup) {x : Nat × α}
    (hx : x ∈ ks.zip vals) : vals[ks.idxOf x.1]? = some x.2 := by
  obtain ⟨i, hi, rfl⟩ := List.mem_iff_getElem.mp hx
  rw [List.length_zip] at hi
  have hi1 : i < ks.length := by omega
  have hi2 : i < vals.length := by omega
  have : ks.idxOf (ks.zip vals)[i].1 = i := by
    rw [List.getElem_zip]
    exact hn.idxOf_getElem i hi1
  rw [this, List.getElem?_eq_getElem hi2, List.getElem_zip]

/-- The inputs of an accepted anonymous component are the given ones, in the order of the names. -/
theorem bind_spec {α : Type} {tm : Templ} {names : Option (List (AOp × Nat))} {vals : List α}
    {ins : List (Nat × α)} (hn : tm.inputs.Nodup) (h : bind tm names vals = .ok ins) :
    inputsOf tm names vals = some ins ∧ ins.map (·.1) = ordered tm ∧ (ins.map (·.2)).Perm vals := by
  have key : ∀ ks : List Nat, ks.Nodup → ks.Perm tm.inputs → ks.length = vals.length →
      ins = toMap (ks.zip vals) →
      ((∀ i, given tm names vals i = vals[ks.idxOf i]?)) →
      inputsOf tm names vals = some ins ∧ ins.map (·.1) = ordered tm ∧ (ins.map (·.2)).Perm vals := by
    intro ks hk hp hl he hg
    have hz : ((ks.zip vals).map (·.1)) = ks := List.map_fst_zip (by omega)
    have hz2 : ((ks.zip vals).map (·.2)) = vals := List.map_snd_zip (by omega)
    have hpm : ins.Perm (ks.zip vals) := by rw [he]; exact toMap_perm (.inr (by rw [hz]; exact hk))
    have ho : ins.map (·.1) = ordered tm := by
      refine sorted_unique tm ?_ (by rw [he]; exact toMap_sorted _)
      have := hpm.map (·.1)
      rw [hz] at this
      exact this.trans hp
    refine ⟨?_, ho, ?_⟩
    · rw [inputsOf, ← ho]
      refine mapM_of (given tm names vals) ins (fun x hx => ?_)
      rw [hg]
      exact zip_idx hk (hpm.mem_iff.mp hx)
    · have := hpm.map (·.2)
      rw [hz2] at this
      exact this
  cases names with
  | none =>
    simp only [bind] at h
    split at h
    · cases h
    · rename_i hl
      injection h with h
      exact key tm.inputs hn (List.Perm.refl _) (by omega) h.symm (fun i => rfl)
  | some m =>
    simp only [bind] at h
    split at h
    · cases h
    · rename_i hl
      split at h
      · cases h
      · split at h
        · cases h
        · rename_i hin
          split at h
          · cases h
          · rename_i hlen
            split at h
            · cases h
            · rename_i hr
              injection h with h
              have hz : (((m.map (·.2)).zip vals).map (·.1)) = m.map (·.2) :=
                List.map_fst_zip (by simp; omega)
              have hll : ((m.map (·.2)).zip vals).length = m.length := by simp; omega
              have hpm : (toMap ((m.map (·.2)).zip vals)).Perm ((m.map (·.2)).zip vals) :=
                toMap_perm (.inl (by omega))
              have hnd : (m.map (·.2)).Nodup := by
                have h0 : ((toMap ((m.map (·.2)).zip vals)).map (·.1)).Nodup :=
                  List.Pairwise.imp (fun h => Nat.ne_of_lt h) (toMap_sorted ((m.map (·.2)).zip vals))
                have h1 := (hpm.map (fun x => x.1)).nodup_iff.mp h0
                rw [hz] at h1
                exact h1
              have hsub : m.map (·.2) ⊆ tm.inputs := by
                intro x hx
                obtain ⟨y, hy, rfl⟩ := List.mem_map.mp hx
                by_contra hc
                exact hin (List.any_eq_true.mpr ⟨y, hy, by simpa using hc⟩)
              have hperm : (m.map (·.2)).Perm tm.inputs :=
                (hnd.subperm hsub).perm_of_length_le (by simp; omega)
              exact key (m.map (·.2)) hnd hperm (by simp; omega) h.symm (fun i => rfl)

theorem given_rel {α β : Type} {R : α → β → Prop} {tm : Templ} {names : Option (List (AOp × Nat))}
    {a : List α} {b : List β} (h : List.Forall₂ R a b) {i : Nat} {x : α} {y : β}
    (hx : given tm names a i = some x) (hy : given tm names b i = some y) : R x y := by
  have key : ∀ j : Nat, a[j]? = some x → b[j]? = some y → R x y := by
    intro j h1 h2
    obtain ⟨j1, rfl⟩ := List.getElem?_eq_some_iff.mp h1
    obtain ⟨j2, rfl⟩ := List.getElem?_eq_some_iff.mp h2
    exact List.Forall₂.get h j1 j2
  cases names with
  | none => exact key _ hx hy
  | some m => exact key _ hx hy

theorem mapM_rel {α β : Type} {R : α → β → Prop} (f : Nat → Option α) (g : Nat → Option β)
    (hr : ∀ i x y, f i = some x → g i = some y → R x y) : (l : List Nat) → (a : List (Nat × α)) →
    (b : List (Nat × β)) → l.mapM (fun i => (f i).map fun v => (i, v)) = some a →
    l.mapM (fun i => (g i).map fun v => (i, v)) = some b →
    List.Forall₂ (fun x y => x.1 = y.1 ∧ R x.2 y.2) a b
  | [], a, b, ha, hb => by
    simp only [List.mapM_nil] at ha hb
    cases ha; cases hb; exact .nil
  | i :: l, a, b, ha, hb => by
    simp only [List.mapM_cons] at ha hb
    cases hf : f i with
    | none => simp [hf] at ha
    | some x =>
      cases hg : g i with
      | none => simp [hg] at hb
      | some y =>
        simp only [hf, hg, Option.map_some, Option.bind_eq_bind, Option.bind_some] at ha hb
        cases h1 : l.mapM (fun i => (f i).map fun v => (i, v)) with
        | none => rw [h1] at ha; simp at ha
        | some a' =>
          cases h2 : l.mapM (fun i => (g i).map fun v => (i, v)) with
          | none => rw [h2] at hb; simp at hb
          | some b' =>
            rw [h1] at ha; rw [h2] at hb
            simp only [Option.bind_some, Option.pure_def, Option.some.injEq] at ha hb
            subst ha; subst hb
            exact .cons ⟨rfl, hr i x y hf hg⟩ (mapM_rel f g hr l a' b' h1 h2)

theorem inputsOf_rel {α β : Type} {R : α → β → Prop} {tm : Templ} {names : Option (List (AOp × Nat))}
    {a : List α} {b : List β} (h : List.Forall₂ R a b) {x : List (Nat × α)} {y : List (Nat × β)}
    (hx : inputsOf tm names a = some x) (hy : inputsOf tm names b = some y) :
    List.Forall₂ (fun x y => x.1 = y.1 ∧ R x.2 y.2) x y :=
  mapM_rel _ _ (fun _ _ _ h1 h2 => given_rel h h1 h2) _ _ _ hx hy

end Verif.Anon
