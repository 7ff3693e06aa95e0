import Verif.Expand

/-!
# Environments and computations
-/

set_option linter.unusedSimpArgs false
set_option linter.unusedVariables false
set_option linter.unusedSectionVars false

namespace Verif.Expand

section Env
variable {α : Type}

/-- The names of each block. -/
def Env.keys (E : Env α) : List (List String) := E.map fun b => b.map Prod.fst

theorem lookup_isSome (b : List (String × α)) (x : String) :
    (b.lookup x).isSome = true ↔ x ∈ b.map Prod.fst := by
  induction b with
  | nil => simp
  | cons p b ih =>
    obtain ⟨y, v⟩ := p
    rw [List.lookup_cons]
    by_cases h : x = y
    · subst h; simp
    · have : (x == y) = false := by simpa using h
      rw [this]
      simp only [List.map_cons, List.mem_cons, h, false_or]
      exact ih

theorem get_isSome (E : Env α) (x : String) : (E.get x).isSome = true ↔ x ∈ E.keys.flatten := by
  rw [Env.get, lookup_isSome]
  unfold Env.keys
  rw [List.map_flatten]

theorem get_some_iff (E : Env α) (x : String) : (∃ v, E.get x = some v) ↔ x ∈ E.keys.flatten := by
  rw [← get_isSome, Option.isSome_iff_exists]

theorem lookup_append (a b : List (String × α)) (x : String) :
    (a ++ b).lookup x = if (a.lookup x).isSome then a.lookup x else b.lookup x := by
  induction a with
  | nil => simp
  | cons p a ih =>
    obtain ⟨y, v⟩ := p
    rw [List.cons_append, List.lookup_cons, List.lookup_cons]
    cases x == y <;> simp [ih]

theorem get_cons (b : List (String × α)) (E : Env α) (x : String) :
    Env.get (b :: E) x = if (b.lookup x).isSome then b.lookup x else E.get x := by
  unfold Env.get
  rw [List.flatten_cons, lookup_append]

theorem lookup_setIn (x : String) (v : α) (b : List (String × α)) (y : String) :
    (setIn x v b).lookup y =
      if y = x then (if (b.lookup x).isSome then some v else none) else b.lookup y := by
  induction b with
  | nil => simp [setIn]
  | cons p b ih =>
    obtain ⟨z, w⟩ := p
    unfold setIn
    by_cases hz : z = x
    · subst hz
      rw [if_pos rfl, List.lookup_cons, List.lookup_cons, List.lookup_cons]
      by_cases hy : y = z
      · subst hy; simp
      · have : (y == z) = false := by simpa using hy
        simp [this, hy]
    · rw [if_neg hz, List.lookup_cons, List.lookup_cons, List.lookup_cons, ih]
      have hxz : (x == z) = false := by simpa using fun h : x = z => hz h.symm
      rw [hxz]
      by_cases hy : y = x
      · subst hy
        simp [hxz]
      · simp [hy]

theorem keys_setIn (x : String) (v : α) (b : List (String × α)) :
    (setIn x v b).map Prod.fst = b.map Prod.fst := by
  induction b with
  | nil => rfl
  | cons p b ih =>
    unfold setIn
    by_cases h : p.1 = x
    · simp [h]
    · simp [h, ih]

theorem keys_set (E : Env α) (x : String) (v : α) : (E.set x v).keys = E.keys := by
  induction E with
  | nil => rfl
  | cons b E ih =>
    unfold Env.set
    by_cases h : (b.lookup x).isSome = true
    · rw [if_pos h]
      simp only [Env.keys, List.map_cons, keys_setIn]
    · rw [if_neg h]
      simp only [Env.keys, List.map_cons] at ih ⊢
      rw [ih]

theorem get_set (E : Env α) (x : String) (v : α) (y : String) :
    (E.set x v).get y = if y = x then (if (E.get x).isSome then some v else none)
      else E.get y := by
  induction E with
  | nil => simp [Env.set, Env.get]
  | cons b E ih =>
    unfold Env.set
    by_cases h : (b.lookup x).isSome = true
    · rw [if_pos h, get_cons, get_cons, get_cons, lookup_setIn]
      by_cases hy : y = x
      · subst hy; simp [h]
      · rw [if_neg hy, if_neg hy]
    · rw [if_neg h, get_cons, get_cons, get_cons, ih]
      by_cases hy : y = x
      · subst hy; simp [h]
      · simp [hy]

theorem get_set_ne (E : Env α) {x y : String} (v : α) (h : y ≠ x) :
    (E.set x v).get y = E.get y := by rw [get_set, if_neg h]

theorem get_set_eq (E : Env α) (x : String) (v : α) (h : x ∈ E.keys.flatten) :
    (E.set x v).get x = some v := by
  rw [get_set, if_pos rfl, if_pos ((get_isSome E x).2 h)]

/-- Names put in front of the innermost block. -/
def addKeys (xs : List String) : List (List String) → List (List String)
  | [] => []
  | b :: K => (xs ++ b) :: K

theorem addKeys_nil (K : List (List String)) : addKeys [] K = K := by
  cases K <;> rfl

theorem addKeys_append (xs ys : List String) (K : List (List String)) :
    addKeys xs (addKeys ys K) = addKeys (xs ++ ys) K := by
  cases K <;> simp [addKeys]

theorem mem_addKeys (xs : List String) (K : List (List String)) (hK : K ≠ []) (y : String) :
    y ∈ (addKeys xs K).flatten ↔ y ∈ xs ∨ y ∈ K.flatten := by
  cases K with
  | nil => exact absurd rfl hK
  | cons b K => simp [addKeys, or_assoc]

theorem keys_ne (E : Env α) : E.keys ≠ [] ↔ E ≠ [] := by
  cases E <;> simp [Env.keys]

theorem keys_add (E : Env α) (x : String) (v : α) : (E.add x v).keys = addKeys [x] E.keys := by
  cases E <;> simp [Env.add, Env.keys, addKeys]

theorem get_add (E : Env α) (hE : E ≠ []) (x : String) (v : α) (y : String) :
    (E.add x v).get y = if y = x then some v else E.get y := by
  cases E with
  | nil => exact absurd rfl hE
  | cons b E =>
    unfold Env.add
    rw [get_cons, get_cons, List.lookup_cons]
    by_cases h : y = x
    · subst h; simp
    · have : (y == x) = false := by simpa using h
      rw [this, if_neg h]

theorem get_push (E : Env α) (x : String) : E.push.get x = E.get x := by
  simp [Env.push, Env.get]

theorem keys_push (E : Env α) : E.push.keys = [] :: E.keys := rfl

theorem keys_pop (E : Env α) : E.pop.keys = E.keys.tail := by
  cases E <;> rfl

theorem get_pop (E : Env α) (x : String) (h : x ∉ E.keys.headD []) :
    E.pop.get x = E.get x := by
  cases E with
  | nil => rfl
  | cons b E =>
    rw [get_cons]
    have : (b.lookup x).isSome = false := by
      cases hb : (b.lookup x).isSome with
      | false => rfl
      | true => exact absurd ((lookup_isSome b x).1 hb) (by simpa [Env.keys] using h)
    simp [this, Env.pop]

end Env

section W
variable {V α β γ : Type}

theorem bind_some (r : W V α) (f : α → W V β) (b : β) (t : List (Tr V)) :
    W.bind r f = some (b, t) ↔
      ∃ a t1 t2, r = some (a, t1) ∧ f a = some (b, t2) ∧ t = t1 ++ t2 := by
  unfold W.bind
  constructor
  · intro h
    cases hr : r with
    | none => rw [hr] at h; exact absurd h (by simp)
    | some p =>
      obtain ⟨a, t1⟩ := p
      rw [hr] at h
      cases hf : f a with
      | none => simp only [hf] at h; exact absurd h (by simp)
      | some q =>
        obtain ⟨b', t2⟩ := q
        simp only [hf, Option.some.injEq, Prod.mk.injEq] at h
        exact ⟨a, t1, t2, rfl, by rw [hf, h.1], h.2.symm⟩
  · rintro ⟨a, t1, t2, rfl, hf, rfl⟩
    simp only [hf]

theorem bind_congr (r : W V α) (f g : α → W V β)
    (h : ∀ a t, r = some (a, t) → f a = g a) : W.bind r f = W.bind r g := by
  cases r with
  | none => rfl
  | some p => unfold W.bind; simp only [h p.1 p.2 rfl]

theorem pure_some (a b : α) (t : List (Tr V)) :
    (W.pure a : W V α) = some (b, t) ↔ b = a ∧ t = [] := by
  unfold W.pure
  constructor
  · intro h
    simp only [Option.some.injEq, Prod.mk.injEq] at h
    exact ⟨h.1.symm, h.2.symm⟩
  · rintro ⟨rfl, rfl⟩; rfl

theorem of_some (o : Option α) (b : α) (t : List (Tr V)) :
    (W.of o : W V α) = some (b, t) ↔ o = some b ∧ t = [] := by
  unfold W.of
  cases o with
  | none => simp
  | some a => simp [eq_comm]

theorem pure_bind (a : α) (f : α → W V β) : W.bind (W.pure a) f = f a := by
  unfold W.bind W.pure
  cases h : f a with
  | none => simp only [h]
  | some q => simp only [h]; rfl

end W

end Verif.Expand
