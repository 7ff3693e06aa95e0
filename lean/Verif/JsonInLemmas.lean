import Verif.JsonIn
import Verif.InputsLemmas
import Mathlib.Data.List.Perm.Basic
import Mathlib.Data.List.Forall2

/-! Lemmas on `Verif.JsonIn`. -/

namespace Verif.JsonIn

open Verif.Inputs (Seg render renderSeg)

set_option linter.unusedSimpArgs false
set_option linter.unusedVariables false

/-! ### What a file says -/

mutual
/-- An object occurs in the value. -/
def hasObj : J → Bool
  | .sc _ => false
  | .arr l => hasObjL l
  | .obj _ => true

def hasObjL : JL → Bool
  | .nil => false
  | .cons j l => hasObj j || hasObjL l
end

mutual
/-- The elementary entries of a value with their paths: objects are opened, and arrays in which an object occurs, down to what is no
array. -/
def leaves (p : List Seg) : J → List (List Seg × J)
  | .sc s => [(p, .sc s)]
  | .arr l => if hasObjL l then leavesL p l 0 else [(p, .arr l)]
  | .obj o => leavesO p o

def leavesE (p : List Seg) : J → List (List Seg × J)
  | .sc s => [(p, .sc s)]
  | .arr l => leavesL p l 0
  | .obj o => leavesO p o

def leavesL (p : List Seg) : JL → Nat → List (List Seg × J)
  | .nil, _ => []
  | .cons j l, i => leavesE (p ++ [.idx i]) j ++ leavesL p l (i + 1)

def leavesO (p : List Seg) : JO → List (List Seg × J)
  | .nil => []
  | .cons k j o => leaves (p ++ [.field k]) j ++ leavesO p o
end

/-- The text of a path. -/
def text : List Seg → String
  | [] => ""
  | .field k :: p => render k p
  | .idx i :: p => render ("[" ++ Nat.repr i ++ "]") p

theorem render_snoc (b : String) (p : List Seg) (g : Seg) : render b (p ++ [g]) = render b p ++ renderSeg g := by
  simp [render]

theorem text_idx (p : List Seg) (i : Nat) : text (p ++ [.idx i]) = bracket (text p) i := by
  unfold bracket
  cases p with
  | nil => simp [text, render]
  | cons g p =>
    cases g <;> simp [text, render_snoc, renderSeg, String.append_assoc]

theorem text_field (p : List Seg) (k : String) (h : p = [] ∨ text p ≠ "") : text (p ++ [.field k]) = dot (text p) k := by
  unfold dot
  cases p with
  | nil => simp [text, render]
  | cons g p =>
    rw [if_neg (h.resolve_left (by simp))]
    cases g <;> simp [text, render_snoc, renderSeg, String.append_assoc]

theorem append_ne {a b : String} (h : b ≠ "") : a ++ b ≠ "" := by
  intro e
  apply h
  have := congrArg String.toList e
  rw [String.toList_append] at this
  simp at this
  exact this.2

theorem bracket_ne (p : String) (i : Nat) : bracket p i ≠ "" := append_ne (by decide)

theorem text_idx_ne (p : List Seg) (i : Nat) : text (p ++ [.idx i]) ≠ "" := by
  rw [text_idx]; exact bracket_ne _ _

theorem text_field_ne (p : List Seg) (k : String) (h : p = [] ∨ text p ≠ "") (hk : k ≠ "") : text (p ++ [.field k]) ≠ "" := by
  rw [text_field p k h]
  unfold dot
  split
  · exact hk
  · exact append_ne hk

mutual
/-- Keys are not empty. -/
def keysOk (K : String → Prop) : J → Prop
  | .sc _ => True
  | .arr l => keysOkL K l
  | .obj o => keysOkO K o

def keysOkL (K : String → Prop) : JL → Prop
  | .nil => True
  | .cons j l => keysOk K j ∧ keysOkL K l

def keysOkO (K : String → Prop) : JO → Prop
  | .nil => True
  | .cons k j o => K k ∧ keysOk K j ∧ keysOkO K o
end

/-- The entries with their names. -/
def named (l : List (List Seg × J)) : List (String × J) := l.map fun e => (text e.1, e.2)

theorem named_append (a b : List (List Seg × J)) : named (a ++ b) = named a ++ named b := by simp [named]

/-! ### The C++ program -/

mutual
theorem checkType_obj : ∀ (j : J) {t : Kind}, checkType j = some t → (hasObj j = true ↔ t = .object)
  | .sc s, t, h => by
    simp only [checkType, Option.some.injEq] at h
    subst h
    cases s <;> simp [hasObj, kindSc]
    split <;> simp
  | .obj _, t, h => by
    simp only [checkType, Option.some.injEq] at h
    simp [hasObj, h]
  | .arr .nil, t, h => by
    simp only [checkType, Option.some.injEq] at h
    simp [hasObj, hasObjL, ← h]
  | .arr (.cons j l), t, h => by
    simp only [checkType] at h
    cases hj : checkType j with
    | none => rw [hj] at h; cases h
    | some u =>
      rw [hj] at h
      simp only at h
      split at h
      · rename_i hr
        cases h
        have h1 := checkType_obj j hj
        have h2 := checkRest_obj l hr
        simp only [hasObj, hasObjL, Bool.or_eq_true]
        constructor
        · rintro (h | h)
          · exact h1.1 h
          · exact h2 h
        · exact fun h => .inl (h1.2 h)
      · cases h

theorem checkRest_obj : ∀ (l : JL) {t : Kind}, checkRest t l = true → hasObjL l = true → t = .object
  | .nil, t, _, h => by simp [hasObjL] at h
  | .cons j l, t, h, ho => by
    simp only [checkRest, Bool.and_eq_true, beq_iff_eq] at h
    simp only [hasObjL, Bool.or_eq_true] at ho
    rcases ho with ho | ho
    · exact (checkType_obj j h.1).1 ho
    · exact checkRest_obj l h.2 ho
end

mutual
/-- The C++ program accepts the structure. -/
def cppOk : J → Bool
  | .sc _ => true
  | .arr l => (checkType (.arr l)).isSome && (!hasObjL l || cppOkL l)
  | .obj o => cppOkO o

def cppOkE : J → Bool
  | .sc _ => true
  | .arr l => cppOkL l
  | .obj o => cppOkO o

def cppOkL : JL → Bool
  | .nil => true
  | .cons j l => cppOkE j && cppOkL l

def cppOkO : JO → Bool
  | .nil => true
  | .cons _ j o => cppOk j && cppOkO o
end

/-- Stores in sequence. -/
def puts (l : List (String × J)) (m : JO) : JO := l.foldl (fun m e => m.put e.1 e.2) m

theorem puts_append (a b : List (String × J)) (m : JO) : puts (a ++ b) m = puts b (puts a m) := by simp [puts]

theorem toList_nil {l : JL} : l.toList.length = 0 ↔ l = .nil := by cases l <;> simp [JL.toList]

mutual
theorem cppQual_eq : ∀ (j : J) (p : List Seg) (m : JO), (p = [] ∨ text p ≠ "") → keysOk (· ≠ "") j →
    cppQual (text p) j m = if cppOk j then some (puts (named (leaves p j)) m) else none
  | .sc s, p, m, hp, hk => by simp [cppQual, cppOk, leaves, named, puts]
  | .obj o, p, m, hp, hk => by
    simp only [cppQual, cppOk, leaves]
    exact cppQualO_eq o p m hp hk
  | .arr l, p, m, hp, hk => by
    rw [show cppOk (.arr l) = ((checkType (.arr l)).isSome && (!hasObjL l || cppOkL l)) from by simp only [cppOk]]
    simp only [cppQual, leaves]
    by_cases h0 : l.toList.length = 0
    · rw [if_pos h0]
      rw [toList_nil] at h0
      subst h0
      simp [checkType, hasObjL, named, puts]
    · rw [if_neg h0]
      cases hc : checkType (.arr l) with
      | none => simp
      | some t =>
        have ho := checkType_obj _ hc
        simp only [hasObj] at ho
        simp only [Option.bind_some, Option.isSome_some, Bool.true_and]
        by_cases h : t = .object
        · rw [if_pos h, ho.2 h]
          simp only [Bool.not_true, Bool.false_or, if_true]
          exact cppQualL_eq l p 0 m hk
        · have : hasObjL l = false := by
            cases e : hasObjL l with
            | false => rfl
            | true => exact absurd (ho.1 e) h
          rw [if_neg h, this]
          simp [named, puts]

theorem cppQualE_eq : ∀ (j : J) (p : List Seg) (m : JO), (p = [] ∨ text p ≠ "") → keysOk (· ≠ "") j →
    cppQualE (text p) j m = if cppOkE j then some (puts (named (leavesE p j)) m) else none
  | .sc s, p, m, hp, hk => by simp [cppQualE, cppOkE, leavesE, named, puts]
  | .obj o, p, m, hp, hk => by
    simp only [cppQualE, cppOkE, leavesE]
    exact cppQualO_eq o p m hp hk
  | .arr l, p, m, hp, hk => by
    simp only [cppQualE, cppOkE, leavesE]
    exact cppQualL_eq l p 0 m hk

theorem cppQualL_eq : ∀ (l : JL) (p : List Seg) (i : Nat) (m : JO), keysOkL (· ≠ "") l →
    cppQualL (text p) l i m = if cppOkL l then some (puts (named (leavesL p l i)) m) else none
  | .nil, p, i, m, hk => by simp [cppQualL, cppOkL, leavesL, named, puts]
  | .cons j l, p, i, m, hk => by
    simp only [cppQualL, cppOkL, leavesL]
    rw [← text_idx, cppQualE_eq j _ m (.inr (text_idx_ne p i)) hk.1]
    by_cases h : cppOkE j
    · simp only [h, if_true, Bool.true_and]
      rw [cppQualL_eq l p (i + 1) _ hk.2, named_append, puts_append]
    · simp [h]

theorem cppQualO_eq : ∀ (o : JO) (p : List Seg) (m : JO), (p = [] ∨ text p ≠ "") → keysOkO (· ≠ "") o →
    cppQualO (text p) o m = if cppOkO o then some (puts (named (leavesO p o)) m) else none
  | .nil, p, m, hp, hk => by simp [cppQualO, cppOkO, leavesO, named, puts]
  | .cons k j o, p, m, hp, hk => by
    simp only [cppQualO, cppOkO, leavesO]
    rw [← text_field p k hp, cppQual_eq j _ m (.inr (text_field_ne p k hp hk.1)) hk.2.1]
    by_cases h : cppOk j
    · simp only [h, if_true, Bool.true_and]
      rw [cppQualO_eq o p _ hp hk.2.2, named_append, puts_append]
    · simp [h]
end

theorem put_perm (k : String) (v : J) : ∀ (m : JO), k ∉ m.toList.map Prod.fst →
    (m.put k v).toList.Perm ((k, v) :: m.toList)
  | .nil, _ => by simp [JO.put, JO.toList]
  | .cons k' v' m, h => by
    simp only [JO.toList, List.map_cons, List.mem_cons, not_or] at h
    simp only [JO.put]
    rw [if_neg h.1]
    split
    · exact List.Perm.refl _
    · simp only [JO.toList]
      exact ((put_perm k v m h.2).cons _).trans (List.Perm.swap _ _ _)

theorem puts_perm : ∀ (l : List (String × J)) (m : JO), ((m.toList ++ l).map Prod.fst).Nodup →
    (puts l m).toList.Perm (m.toList ++ l)
  | [], m, _ => by simp [puts]
  | (k, v) :: l, m, h => by
    have hk : k ∉ m.toList.map Prod.fst := by
      intro hm
      rw [List.map_append, List.nodup_append] at h
      exact h.2.2 k hm k (by simp) rfl
    have hp := put_perm k v m hk
    have hp2 : ((m.put k v).toList ++ l).Perm (m.toList ++ (k, v) :: l) :=
      (hp.append_right l).trans List.perm_middle.symm
    have := puts_perm l (m.put k v) ((hp2.map Prod.fst).nodup_iff.2 h)
    exact this.trans hp2

/-! ### The JavaScript program -/

theorem set_append (k : String) (v : J) : ∀ (m : JO), k ∉ m.toList.map Prod.fst →
    (m.set k v).toList = m.toList ++ [(k, v)]
  | .nil, _ => rfl
  | .cons k' v' m, h => by
    simp only [JO.toList, List.map_cons, List.mem_cons, not_or] at h
    simp only [JO.set]
    rw [if_neg h.1]
    simp [JO.toList, set_append k v m h.2]

/-- Stores in sequence. -/
def stores (l : List (String × J)) (m : JO) : JO := l.foldl (fun m e => jsStore e.1 e.2 m) m

theorem stores_append (a b : List (String × J)) (m : JO) : stores (a ++ b) m = stores b (stores a m) := by simp [stores]

theorem stores_eq : ∀ (l : List (String × J)) (m : JO), ((m.toList ++ l).map Prod.fst).Nodup →
    "__proto__" ∉ l.map Prod.fst → (stores l m).toList = m.toList ++ l
  | [], m, _, _ => by simp [stores]
  | (k, v) :: l, m, h, hp => by
    simp only [List.map_cons, List.mem_cons, not_or] at hp
    have hk : k ∉ m.toList.map Prod.fst := by
      intro hm
      rw [List.map_append, List.nodup_append] at h
      exact h.2.2 k hm k (by simp) rfl
    have hs : jsStore k v m = m.set k v := by
      unfold jsStore
      rw [if_neg (fun e => hp.1 e.symm)]
    have e := set_append k v m hk
    have := stores_eq l (m.set k v) (by rw [e]; simpa using h) hp.2
    change (stores l (jsStore k v m)).toList = _
    rw [hs, this, e]
    simp

mutual
/-- The JavaScript program accepts the structure. -/
def jsOk : J → Bool
  | .sc s => s ≠ .null
  | .arr l => (jsCheck (flatL l)).isSome && (jsCheck (flatL l) == some false || jsOkL l)
  | .obj o => jsOkO o

def jsOkE : J → Bool
  | .sc s => s ≠ .null
  | .arr l => jsOkL l
  | .obj o => jsOkO o

def jsOkL : JL → Bool
  | .nil => true
  | .cons j l => jsOkE j && jsOkL l

def jsOkO : JO → Bool
  | .nil => true
  | .cons _ j o => jsOk j && jsOkO o
end

mutual
theorem flat_hasObj : ∀ (j : J), hasObj j = true ↔ ∃ o, J.obj o ∈ flat j
  | .sc s => by simp [hasObj, flat]
  | .obj o => by simp [hasObj, flat]
  | .arr l => by simp only [hasObj, flat]; exact flatL_hasObj l

theorem flatL_hasObj : ∀ (l : JL), hasObjL l = true ↔ ∃ o, J.obj o ∈ flatL l
  | .nil => by simp [hasObjL, flatL]
  | .cons j l => by
    simp only [hasObjL, flatL, Bool.or_eq_true, List.mem_append, flat_hasObj j, flatL_hasObj l, exists_or]
end

mutual
theorem flat_kinds : ∀ (j x : J), x ∈ flat j → (∃ s, x = .sc s) ∨ ∃ o, x = .obj o
  | .sc s, x, h => by simp only [flat, List.mem_singleton] at h; exact .inl ⟨s, h⟩
  | .obj o, x, h => by simp only [flat, List.mem_singleton] at h; exact .inr ⟨o, h⟩
  | .arr l, x, h => by simp only [flat] at h; exact flatL_kinds l x h

theorem flatL_kinds : ∀ (l : JL) (x : J), x ∈ flatL l → (∃ s, x = .sc s) ∨ ∃ o, x = .obj o
  | .nil, x, h => by simp [flatL] at h
  | .cons j l, x, h => by
    simp only [flatL, List.mem_append] at h
    exact h.elim (flat_kinds j x) (flatL_kinds l x)
end

mutual
theorem jsOkE_null : ∀ (j : J), jsOkE j = true → J.sc .null ∉ flat j
  | .sc s, h => by simp only [jsOkE, decide_eq_true_eq] at h; simp [flat]; exact fun e => h e.symm
  | .obj o, h => by simp [flat]
  | .arr l, h => by simp only [jsOkE] at h; simp only [flat]; exact jsOkL_null l h

theorem jsOkL_null : ∀ (l : JL), jsOkL l = true → J.sc .null ∉ flatL l
  | .nil, _ => by simp [flatL]
  | .cons j l, h => by
    simp only [jsOkL, Bool.and_eq_true] at h
    simp only [flatL, List.mem_append, not_or]
    exact ⟨jsOkE_null j h.1, jsOkL_null l h.2⟩
end

theorem typeof_object {x : J} (h : (∃ s, x = .sc s) ∨ ∃ o, x = .obj o) :
    typeof x = .object ↔ x = .sc .null ∨ ∃ o, x = .obj o := by
  rcases h with ⟨s, rfl⟩ | ⟨o, rfl⟩
  · cases s <;> simp [typeof, typeofSc]
  · simp [typeof]

mutual
theorem jsQual_eq : ∀ (j : J) (p : List Seg) (m : JO), (p = [] ∨ text p ≠ "") → keysOk (· ≠ "") j →
    jsQual (text p) j m = if jsOk j then some (stores (named (leaves p j)) m) else none
  | .sc s, p, m, hp, hk => by
    simp only [jsQual, jsOk, leaves]
    by_cases h : s = .null <;> simp [h, named, stores]
  | .obj o, p, m, hp, hk => by
    simp only [jsQual, jsOk, leaves]
    exact jsQualO_eq o p m hp hk
  | .arr l, p, m, hp, hk => by
    rw [show jsOk (.arr l) = ((jsCheck (flatL l)).isSome && (jsCheck (flatL l) == some false || jsOkL l)) from by simp only [jsOk]]
    simp only [jsQual, leaves]
    have ho := flatL_hasObj l
    have hL := jsQualL_eq l p 0 m hk
    have hn := jsOkL_null l
    have hkd := flatL_kinds l
    cases hc : jsCheck (flatL l) with
    | none => simp
    | some t =>
      have hh : (jsOkL l = true → t = true → hasObjL l = true) ∧ (t = false → hasObjL l = false) := by
        cases hf : flatL l with
        | nil =>
          rw [hf] at ho hc
          cases hc
          refine ⟨by simp, fun _ => ?_⟩
          cases e : hasObjL l with
          | false => rfl
          | true => obtain ⟨o, h⟩ := ho.1 e; cases h
        | cons a as =>
          rw [hf] at ho hn hkd hc
          simp only [jsCheck] at hc
          split at hc
          · rename_i hall
            cases hc
            have ta := typeof_object (hkd a (by simp))
            refine ⟨fun hok ht => ?_, fun ht => ?_⟩
            · rw [ho]
              rcases ta.1 (by simpa using ht) with h | ⟨o, h⟩
              · exact absurd (by simp [h]) (hn hok)
              · exact ⟨o, by simp [h]⟩
            · simp only [decide_eq_false_iff_not] at ht
              cases e : hasObjL l with
              | false => rfl
              | true =>
                obtain ⟨o, h⟩ := ho.1 e
                rcases List.mem_cons.1 h with h | h
                · exact absurd (ta.2 (.inr ⟨o, h.symm⟩)) ht
                · have := List.all_eq_true.1 hall _ h
                  simp only [decide_eq_true_eq] at this
                  exact absurd this.symm ht
          · cases hc
      simp only [Option.bind_some, Option.isSome_some, Bool.true_and]
      cases t with
      | true =>
        rw [if_pos rfl, hL]
        by_cases hok : jsOkL l = true
        · simp [hok, hh.1 hok rfl]
        · simp [hok]
      | false =>
        simp [hh.2 rfl, named, stores]

theorem jsQualE_eq : ∀ (j : J) (p : List Seg) (m : JO), (p = [] ∨ text p ≠ "") → keysOk (· ≠ "") j →
    jsQualE (text p) j m = if jsOkE j then some (stores (named (leavesE p j)) m) else none
  | .sc s, p, m, hp, hk => by
    simp only [jsQualE, jsOkE, leavesE]
    by_cases h : s = .null <;> simp [h, named, stores]
  | .obj o, p, m, hp, hk => by
    simp only [jsQualE, jsOkE, leavesE]
    exact jsQualO_eq o p m hp hk
  | .arr l, p, m, hp, hk => by
    simp only [jsQualE, jsOkE, leavesE]
    exact jsQualL_eq l p 0 m hk

theorem jsQualL_eq : ∀ (l : JL) (p : List Seg) (i : Nat) (m : JO), keysOkL (· ≠ "") l →
    jsQualL (text p) l i m = if jsOkL l then some (stores (named (leavesL p l i)) m) else none
  | .nil, p, i, m, hk => by simp [jsQualL, jsOkL, leavesL, named, stores]
  | .cons j l, p, i, m, hk => by
    simp only [jsQualL, jsOkL, leavesL]
    rw [← text_idx, jsQualE_eq j _ m (.inr (text_idx_ne p i)) hk.1]
    by_cases h : jsOkE j
    · simp only [h, if_true, Bool.true_and]
      rw [jsQualL_eq l p (i + 1) _ hk.2, named_append, stores_append]
    · simp [h]

theorem jsQualO_eq : ∀ (o : JO) (p : List Seg) (m : JO), (p = [] ∨ text p ≠ "") → keysOkO (· ≠ "") o →
    jsQualO (text p) o m = if jsOkO o then some (stores (named (leavesO p o)) m) else none
  | .nil, p, m, hp, hk => by simp [jsQualO, jsOkO, leavesO, named, stores]
  | .cons k j o, p, m, hp, hk => by
    simp only [jsQualO, jsOkO, leavesO]
    rw [← text_field p k hp, jsQual_eq j _ m (.inr (text_field_ne p k hp hk.1)) hk.2.1]
    by_cases h : jsOk j
    · simp only [h, if_true, Bool.true_and]
      rw [jsQualO_eq o p _ hp hk.2.2, named_append, stores_append]
    · simp [h]
end

end Verif.JsonIn
