import Verif.CMap
import Mathlib.Tactic.Ring
import Mathlib.Tactic.Linarith
import Mathlib.Tactic.LinearCombination
import Mathlib.Data.List.Nodup

/-! Helper lemmas about coefficient maps. -/

set_option linter.unusedSectionVars false

namespace Verif
variable {K : Type} [DecidableEq K] {p : Nat}

theorem ev_nil (ρ : K → ZMod p) : ev ρ ([] : CMap K) = 0 := rfl

theorem ev_cons (ρ : K → ZMod p) (e : K × Int) (m : CMap K) : ev ρ (e :: m) = (e.2 : ZMod p) * ρ e.1 + ev ρ m := rfl

theorem ev_append (ρ : K → ZMod p) (m m' : CMap K) : ev ρ (m ++ m') = ev ρ m + ev ρ m' := by
  simp [ev]

theorem ev_congr (ρ ρ' : K → ZMod p) (m : CMap K) (h : ∀ k ∈ m.keys, ρ k = ρ' k) : ev ρ m = ev ρ' m := by
  induction m with
  | nil => rfl
  | cons e m ih =>
    rw [ev_cons, ev_cons, h e.1 (by simp [CMap.keys]), ih (fun k hk => h k (by simp [CMap.keys] at hk ⊢; tauto))]

theorem ev_perm (ρ : K → ZMod p) {m m' : CMap K} (h : m.Perm m') : ev ρ m = ev ρ m' :=
  (h.map _).sum_eq

namespace CMap

@[simp] theorem keys_nil : keys ([] : CMap K) = [] := rfl
@[simp] theorem keys_cons (e : K × Int) (m : CMap K) : keys (e :: m) = e.1 :: keys m := rfl

theorem wf_nil : WF ([] : CMap K) := by simp [WF, keys]

theorem wf_cons {e : K × Int} {m : CMap K} : WF (e :: m) ↔ e.1 ∉ keys m ∧ WF m := by
  simp [WF, keys]

theorem get_isSome_iff (m : CMap K) (k : K) : (get m k).isSome ↔ k ∈ keys m := by
  induction m with
  | nil => simp [get]
  | cons e m ih =>
    obtain ⟨k', v⟩ := e
    simp only [get, keys_cons, List.mem_cons]
    split
    · rename_i h; simp [h]
    · rename_i h
      rw [ih]
      constructor
      · intro h'; exact Or.inr h'
      · rintro (h' | h')
        · exact absurd h'.symm h
        · exact h'

theorem contains_iff (m : CMap K) (k : K) : contains m k = true ↔ k ∈ keys m := by
  unfold contains; exact get_isSome_iff m k

theorem get_eq_none_iff (m : CMap K) (k : K) : get m k = none ↔ k ∉ keys m := by
  rw [← get_isSome_iff]; cases get m k <;> simp

theorem get_mem {m : CMap K} {k : K} {v : Int} (h : get m k = some v) : (k, v) ∈ m := by
  induction m with
  | nil => simp [get] at h
  | cons e m ih =>
    obtain ⟨k', v'⟩ := e
    simp only [get] at h
    split at h
    · rename_i hk; injection h with h; subst h; subst hk; simp
    · simp [ih h]

theorem get_of_mem {m : CMap K} (hw : WF m) {k : K} {v : Int} (h : (k, v) ∈ m) : get m k = some v := by
  induction m with
  | nil => simp at h
  | cons e m ih =>
    obtain ⟨k', v'⟩ := e
    obtain ⟨h1, h2⟩ := wf_cons.1 hw
    simp only [get]
    rcases List.mem_cons.1 h with h | h
    · injection h with ha hb; subst ha; subst hb; simp
    · have : k ∈ keys m := List.mem_map.2 ⟨_, h, rfl⟩
      rw [if_neg (by rintro rfl; exact h1 this)]
      exact ih h2 h

theorem get_insert (m : CMap K) (k k' : K) (v : Int) :
    get (insert m k v) k' = if k = k' then some v else get m k' := by
  induction m with
  | nil => simp [insert, get]
  | cons e m ih =>
    obtain ⟨k0, v0⟩ := e
    simp only [insert]
    split
    · rename_i h; subst h; simp only [get]
      split <;> simp_all
    · rename_i h
      simp only [get, ih]
      by_cases h1 : k0 = k'
      · subst h1; simp [Ne.symm h]
      · simp [h1]

theorem mem_keys_insert (m : CMap K) (k k' : K) (v : Int) : k' ∈ keys (insert m k v) ↔ k' = k ∨ k' ∈ keys m := by
  rw [← get_isSome_iff, get_insert]
  by_cases h : k = k'
  · simp [h]
  · simp [h, get_isSome_iff, Ne.symm h]

theorem mem_insert {m : CMap K} {k : K} {v : Int} {e : K × Int} (h : e ∈ insert m k v) : e = (k, v) ∨ e ∈ m := by
  induction m with
  | nil => simp [insert] at h; exact Or.inl h
  | cons e' m ih =>
    simp only [insert] at h
    split at h
    · rcases List.mem_cons.1 h with h | h
      · exact Or.inl h
      · right; simp [h]
    · rcases List.mem_cons.1 h with h | h
      · right; simp [h]
      · rcases ih h with h | h
        · exact Or.inl h
        · right; simp [h]

theorem wf_insert {m : CMap K} (h : WF m) (k : K) (v : Int) : WF (insert m k v) := by
  induction m with
  | nil => simp [insert, WF, keys]
  | cons e m ih =>
    obtain ⟨k0, v0⟩ := e
    obtain ⟨h1, h2⟩ := wf_cons.1 h
    simp only [insert]
    split
    · rename_i hk; subst hk; exact wf_cons.2 ⟨h1, h2⟩
    · rename_i hk
      refine wf_cons.2 ⟨?_, ih h2⟩
      rw [mem_keys_insert]
      rintro (h' | h')
      · exact hk h'
      · exact h1 h'

theorem keys_remove (m : CMap K) (k : K) : keys (remove m k) = (keys m).filter fun k' => decide (k' ≠ k) := by
  unfold keys remove
  rw [List.filter_map]
  rfl

theorem mem_keys_remove (m : CMap K) (k k' : K) : k' ∈ keys (remove m k) ↔ k' ≠ k ∧ k' ∈ keys m := by
  rw [keys_remove]; simp [and_comm]

theorem mem_remove {m : CMap K} {k : K} {e : K × Int} : e ∈ remove m k ↔ e ∈ m ∧ e.1 ≠ k := by
  simp [remove]

theorem wf_remove {m : CMap K} (h : WF m) (k : K) : WF (remove m k) := by
  unfold WF; rw [keys_remove]; exact h.filter _

theorem get_remove (m : CMap K) (k k' : K) : get (remove m k) k' = if k = k' then none else get m k' := by
  induction m with
  | nil => simp [remove, get]
  | cons e m ih =>
    obtain ⟨k0, v0⟩ := e
    unfold remove at ih ⊢
    rw [List.filter_cons]
    by_cases h : k0 = k
    · subst h
      simp only [ne_eq, not_true_eq_false, decide_false, Bool.false_eq_true, if_false]
      simp only [ne_eq] at ih
      rw [ih]
      by_cases h' : k0 = k'
      · simp [h']
      · simp [h', get]
    · simp only [ne_eq, h, not_false_eq_true, decide_true, if_true, get]
      simp only [ne_eq] at ih
      rw [ih]
      by_cases h' : k0 = k'
      · subst h'; simp [Ne.symm h]
      · simp [h']

theorem remove_of_not_mem {m : CMap K} {k : K} (h : k ∉ keys m) : remove m k = m := by
  unfold remove
  rw [List.filter_eq_self]
  intro e he
  have : e.1 ∈ keys m := List.mem_map.2 ⟨e, he, rfl⟩
  simp only [ne_eq, decide_eq_true_eq]
  rintro rfl
  exact h this

end CMap

theorem ev_insert (ρ : K → ZMod p) (m : CMap K) (k : K) (v : Int) :
    ev ρ (m.insert k v) = ev ρ m + ((v : ZMod p) - (((m.get k).getD 0 : Int) : ZMod p)) * ρ k := by
  induction m with
  | nil => simp [CMap.insert, CMap.get, ev]
  | cons e m ih =>
    obtain ⟨k0, v0⟩ := e
    simp only [CMap.insert, CMap.get]
    split
    · rename_i h; subst h; simp only [ev_cons, Option.getD_some]; ring
    · simp only [ev_cons, ih]; ring

theorem ev_remove (ρ : K → ZMod p) {m : CMap K} (hw : m.WF) (k : K) :
    ev ρ (m.remove k) = ev ρ m - (((m.get k).getD 0 : Int) : ZMod p) * ρ k := by
  induction m with
  | nil => simp [CMap.remove, CMap.get, ev]
  | cons e m ih =>
    obtain ⟨k0, v0⟩ := e
    obtain ⟨h1, h2⟩ := CMap.wf_cons.1 hw
    by_cases h : k0 = k
    · subst h
      have : CMap.remove ((k0, v0) :: m) k0 = m := by
        have := CMap.remove_of_not_mem h1
        unfold CMap.remove at this ⊢
        rw [List.filter_cons]
        simp only [ne_eq, not_true_eq_false, decide_false, Bool.false_eq_true, if_false]
        exact this
      rw [this]
      simp [CMap.get, ev_cons]
    · have : CMap.remove ((k0, v0) :: m) k = (k0, v0) :: CMap.remove m k := by
        unfold CMap.remove
        rw [List.filter_cons]
        simp [h]
      rw [this]
      simp only [ev_cons, ih h2, CMap.get, if_neg h]
      ring

theorem canon_insert {m : CMap K} (h : CanonMap p m) {k : K} {v : Int} (hv : 0 ≤ v ∧ v < p) :
    CanonMap p (m.insert k v) := by
  intro e he
  rcases CMap.mem_insert he with rfl | he
  · exact hv
  · exact h e he

theorem canon_remove {m : CMap K} (h : CanonMap p m) (k : K) : CanonMap p (m.remove k) :=
  fun e he => h e (CMap.mem_remove.1 he).1

/-- Replacing the value of one signal in the assignment changes the value by its coefficient. -/
theorem ev_update (ρ : K → ZMod p) {m : CMap K} (hw : m.WF) (k : K) (x : ZMod p) :
    ev (Function.update ρ k x) m = ev ρ m + (((m.get k).getD 0 : Int) : ZMod p) * (x - ρ k) := by
  induction m with
  | nil => simp [CMap.get, ev]
  | cons e m ih =>
    obtain ⟨k0, v0⟩ := e
    obtain ⟨h1, h2⟩ := CMap.wf_cons.1 hw
    simp only [ev_cons, CMap.get]
    by_cases h : k0 = k
    · subst h
      rw [ih h2, (CMap.get_eq_none_iff _ _).2 h1]
      simp; ring
    · rw [Function.update_of_ne h, ih h2, if_neg h]; ring

end Verif
