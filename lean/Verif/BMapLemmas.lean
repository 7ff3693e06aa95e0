import Verif.BMap
import Mathlib.Tactic.Common

namespace Verif.BMap
variable {V : Type}

@[simp] theorem keys_nil : keys ([] : BMap V) = [] := rfl
@[simp] theorem keys_cons (e : Nat × V) (m : BMap V) : keys (e :: m) = e.1 :: keys m := rfl

theorem sorted_nil : Sorted ([] : BMap V) := List.Pairwise.nil

theorem sorted_cons {e : Nat × V} {m : BMap V} : Sorted (e :: m) ↔ (∀ x ∈ m, e.1 < x.1) ∧ Sorted m :=
  List.pairwise_cons

theorem get_mem {m : BMap V} {k : Nat} {v : V} (h : get m k = some v) : (k, v) ∈ m := by
  induction m with
  | nil => simp [get] at h
  | cons e m ih =>
    obtain ⟨k', v'⟩ := e
    simp only [get] at h
    split at h
    · injection h with h; subst h; subst_vars; simp
    · exact List.mem_cons_of_mem _ (ih h)

theorem get_of_mem {m : BMap V} (hs : Sorted m) {k : Nat} {v : V} (h : (k, v) ∈ m) : get m k = some v := by
  induction m with
  | nil => simp at h
  | cons e m ih =>
    obtain ⟨k', v'⟩ := e
    obtain ⟨h1, h2⟩ := sorted_cons.1 hs
    simp only [get]
    rcases List.mem_cons.1 h with h | h
    · injection h with ha hb; subst ha; subst hb; simp
    · have := h1 _ h
      rw [if_neg (by simp only at this; omega)]
      exact ih h2 h

theorem get_eq_some_iff {m : BMap V} (hs : Sorted m) {k : Nat} {v : V} : get m k = some v ↔ (k, v) ∈ m :=
  ⟨get_mem, get_of_mem hs⟩

theorem get_isSome_iff (m : BMap V) (k : Nat) : (get m k).isSome ↔ k ∈ keys m := by
  induction m with
  | nil => simp [get]
  | cons e m ih =>
    obtain ⟨k', v'⟩ := e
    simp only [get, keys_cons, List.mem_cons]
    by_cases h : k' = k
    · simp [h]
    · rw [if_neg h, ih]
      constructor
      · exact Or.inr
      · rintro (h' | h')
        · exact absurd h'.symm h
        · exact h'

theorem get_eq_none_iff (m : BMap V) (k : Nat) : get m k = none ↔ k ∉ keys m := by
  rw [← get_isSome_iff]; simp

theorem mem_insert_iff {m : BMap V} (hs : Sorted m) (k : Nat) (v : V) (e : Nat × V) :
    e ∈ insert m k v ↔ e = (k, v) ∨ (e ∈ m ∧ e.1 ≠ k) := by
  induction m with
  | nil => simp [insert]
  | cons e' m ih =>
    obtain ⟨k', v'⟩ := e'
    obtain ⟨h1, h2⟩ := sorted_cons.1 hs
    simp only [insert]
    split
    · rename_i hk
      simp only [List.mem_cons]
      constructor
      · rintro (h | h | h)
        · exact Or.inl h
        · right; subst h; exact ⟨Or.inl rfl, by simp only; omega⟩
        · right; have := h1 e h; exact ⟨Or.inr h, by simp only at this; omega⟩
      · rintro (h | ⟨h | h, _⟩)
        · exact Or.inl h
        · exact Or.inr (Or.inl h)
        · exact Or.inr (Or.inr h)
    · split
      · rename_i hk hk'
        subst hk'
        simp only [List.mem_cons]
        constructor
        · rintro (h | h)
          · exact Or.inl h
          · right; have := h1 e h; exact ⟨Or.inr h, by simp only at this; omega⟩
        · rintro (h | ⟨h | h, hne⟩)
          · exact Or.inl h
          · subst h; exact absurd rfl hne
          · exact Or.inr h
      · rename_i hk hk'
        simp only [List.mem_cons, ih h2]
        constructor
        · rintro (h | h | ⟨h, hne⟩)
          · subst h; right; exact ⟨Or.inl rfl, by simp only; omega⟩
          · exact Or.inl h
          · exact Or.inr ⟨Or.inr h, hne⟩
        · rintro (h | ⟨h | h, hne⟩)
          · exact Or.inr (Or.inl h)
          · exact Or.inl h
          · exact Or.inr (Or.inr ⟨h, hne⟩)

theorem sorted_insert {m : BMap V} (hs : Sorted m) (k : Nat) (v : V) : Sorted (insert m k v) := by
  induction m with
  | nil => simp [insert, Sorted]
  | cons e' m ih =>
    obtain ⟨k', v'⟩ := e'
    obtain ⟨h1, h2⟩ := sorted_cons.1 hs
    simp only [insert]
    split
    · rename_i hk
      refine sorted_cons.2 ⟨?_, hs⟩
      intro x hx
      rcases List.mem_cons.1 hx with h | h
      · subst h; exact hk
      · have := h1 x h; simp only at this ⊢; omega
    · split
      · rename_i hk hk'
        subst hk'
        exact sorted_cons.2 ⟨h1, h2⟩
      · rename_i hk hk'
        refine sorted_cons.2 ⟨?_, ih h2⟩
        intro x hx
        rcases (mem_insert_iff h2 k v x).1 hx with h | ⟨h, _⟩
        · subst h; simp only; omega
        · exact h1 x h

theorem get_insert (m : BMap V) (k : Nat) (v : V) (k' : Nat) (hs : Sorted m) :
    get (insert m k v) k' = if k' = k then some v else get m k' := by
  have hs' := sorted_insert hs k v
  by_cases h : k' = k
  · subst h
    rw [if_pos rfl, get_eq_some_iff hs', mem_insert_iff hs]
    exact Or.inl rfl
  · rw [if_neg h]
    apply Option.ext
    intro w
    rw [get_eq_some_iff hs', get_eq_some_iff hs, mem_insert_iff hs]
    constructor
    · rintro (h' | ⟨h', _⟩)
      · injection h' with h1 _; exact absurd h1 h
      · exact h'
    · intro h'; exact Or.inr ⟨h', h⟩

theorem mem_keys_insert {m : BMap V} (hs : Sorted m) (k : Nat) (v : V) (k' : Nat) :
    k' ∈ keys (insert m k v) ↔ k' = k ∨ k' ∈ keys m := by
  rw [← get_isSome_iff, ← get_isSome_iff, get_insert _ _ _ _ hs]
  by_cases h : k' = k <;> simp [h]

theorem nodup_keys {m : BMap V} (hs : Sorted m) : (keys m).Nodup := by
  unfold keys
  rw [List.Nodup, List.pairwise_map]
  exact hs.imp fun h => by omega

theorem mem_remove {m : BMap V} {k : Nat} {e : Nat × V} : e ∈ remove m k ↔ e ∈ m ∧ e.1 ≠ k := by
  simp [remove]

theorem sorted_remove {m : BMap V} (hs : Sorted m) (k : Nat) : Sorted (remove m k) := hs.filter _

theorem get_remove {m : BMap V} (hs : Sorted m) (k k' : Nat) :
    get (remove m k) k' = if k' = k then none else get m k' := by
  apply Option.ext
  intro w
  rw [get_eq_some_iff (sorted_remove hs k), mem_remove]
  by_cases h : k' = k
  · simp [h]
  · rw [if_neg h, get_eq_some_iff hs]; simp [h]

theorem mem_keys_iff (m : BMap V) (k : Nat) : k ∈ keys m ↔ ∃ v, (k, v) ∈ m := by
  simp [keys]

theorem mem_keys_remove {m : BMap V} (k k' : Nat) : k' ∈ keys (remove m k) ↔ k' ∈ keys m ∧ k' ≠ k := by
  simp only [mem_keys_iff, mem_remove]
  constructor
  · rintro ⟨v, h, hne⟩; exact ⟨⟨v, h⟩, hne⟩
  · rintro ⟨⟨v, h⟩, hne⟩; exact ⟨v, h, hne⟩

end Verif.BMap
