import Verif.JsonEncLemmas

/-! Files that follow the declarations of the inputs: acceptance, and the whole file. -/

namespace Verif.JsonIn

open Verif.Inputs

set_option linter.unusedSimpArgs false
set_option linter.unusedVariables false
set_option linter.unusedSectionVars false

/-! ### The order of entries does not matter for acceptance -/

mutual
theorem checkType_cppDom : ∀ (j : J), checkType (cppDom j) = checkType j
  | .sc _ => rfl
  | .obj _ => rfl
  | .arr .nil => rfl
  | .arr (.cons j l) => by
    simp only [cppDom, cppDomL, checkType]
    rw [checkType_cppDom j]
    cases checkType j with
    | none => rfl
    | some t => simp only; rw [checkRest_cppDom l t]

theorem checkRest_cppDom : ∀ (l : JL) (t : Kind), checkRest t (cppDomL l) = checkRest t l
  | .nil, _ => rfl
  | .cons j l, t => by simp only [cppDomL, checkRest]; rw [checkType_cppDom j, checkRest_cppDom l t]
end

theorem cppOkO_all : ∀ (o : JO), cppOkO o = o.toList.all fun e => cppOk e.2
  | .nil => rfl
  | .cons k j o => by simp only [cppOkO, JO.toList, List.all_cons, cppOkO_all o]

theorem all_perm {α : Type} {f : α → Bool} {a b : List α} (h : a.Perm b) : a.all f = b.all f := by
  rw [Bool.eq_iff_iff, List.all_eq_true, List.all_eq_true]
  exact ⟨fun g x hx => g x (h.mem_iff.2 hx), fun g x hx => g x (h.mem_iff.1 hx)⟩

mutual
theorem cppOk_cppDom : ∀ (j : J), distinct j → cppOk (cppDom j) = cppOk j
  | .sc _, _ => rfl
  | .arr l, h => by
    have h1 := checkType_cppDom (.arr l)
    simp only [cppDom] at h1
    simp only [cppDom, cppOk]
    rw [h1, hasObjL_cppDom, cppOkL_cppDom l h]
  | .obj o, h => by
    simp only [cppDom, cppOk]
    rw [cppOkO_all, all_perm (cppDomO_perm o .nil (by simpa [JO.toList] using h.1)), cppOkO_all]
    simp only [JO.toList, List.nil_append, List.all_map]
    exact cppOkO_cppDom o h.2

theorem cppOkE_cppDom : ∀ (j : J), distinct j → cppOkE (cppDom j) = cppOkE j
  | .sc _, _ => rfl
  | .arr l, h => by
    simp only [cppDom, cppOkE]
    exact cppOkL_cppDom l h
  | .obj o, h => by
    simp only [cppDom, cppOkE]
    rw [cppOkO_all, all_perm (cppDomO_perm o .nil (by simpa [JO.toList] using h.1)), cppOkO_all]
    simp only [JO.toList, List.nil_append, List.all_map]
    exact cppOkO_cppDom o h.2

theorem cppOkL_cppDom : ∀ (l : JL), distinctL l → cppOkL (cppDomL l) = cppOkL l
  | .nil, _ => rfl
  | .cons j l, h => by
    simp only [cppDomL, cppOkL]
    rw [cppOkE_cppDom j h.1, cppOkL_cppDom l h.2]

theorem cppOkO_cppDom : ∀ (o : JO), distinctO o →
    (o.toList.all ((fun e => cppOk e.2) ∘ fun e => (e.1, cppDom e.2))) = o.toList.all fun e => cppOk e.2
  | .nil, _ => rfl
  | .cons k j o, h => by
    simp only [JO.toList, List.all_cons, Function.comp]
    rw [cppOk_cppDom j h.1]
    congr 1
    exact cppOkO_cppDom o h.2
end

/-- The file for the C++ program: what is loaded, before the values are read. -/
theorem cpp_file {o : JO} (hk : keysOkO KeyOk o) (hn : (o.toList.map Prod.fst).Nodup) (hd : distinctO o) :
    (cppOkO o = false → cppQual "" (cppDom (.obj o)) .nil = none) ∧
    (cppOkO o = true → ∃ m, cppQual "" (cppDom (.obj o)) .nil = some m ∧ m.toList.Perm (named (leavesO [] o))) := by
  have hD : distinct (.obj o) := ⟨hn, hd⟩
  have hq := cppQual_eq (cppDom (.obj o)) [] .nil (.inl rfl)
    (keysOk_mono (fun k (h : KeyOk k) => h.1) _ (keysOk_cppDom (.obj o) hk))
  rw [cppOk_cppDom _ hD] at hq
  have hp := leaves_cppDom (.obj o) [] hD
  simp only [leaves] at hp
  change cppQual "" _ _ = _ at hq
  have hok : cppOk (.obj o) = cppOkO o := by simp only [cppOk]
  refine ⟨fun h => by rw [hq, if_neg (by rw [hok, h]; simp)], fun h => ?_⟩
  rw [hq, if_pos (by rw [hok, h])]
  refine ⟨_, rfl, ?_⟩
  have hp' : (named (leaves [] (cppDom (.obj o)))).Perm (named (leavesO [] o)) := hp.map _
  have hnd := names_nodup o hk hn hd
  refine (puts_perm _ .nil ?_).trans ?_
  · simp only [JO.toList, List.nil_append]
    exact (hp'.map Prod.fst).nodup_iff.2 hnd
  · simpa only [JO.toList, List.nil_append] using hp'

theorem proto_text {k : String} {r : List Seg} (hk : Ident k) (hr : ∀ g ∈ r, SegOk g) (h : render k r = "__proto__") :
    k = "__proto__" := by
  have : render k r = render "__proto__" [] := by rw [h]; rfl
  refine (render_inj hk ?_ hr (by simp) this).1
  intro c hc
  have hs : "__proto__".toList = ['_', '_', 'p', 'r', 'o', 't', 'o', '_', '_'] := by decide
  rw [hs] at hc
  have : c = '_' ∨ c = 'p' ∨ c = 'r' ∨ c = 'o' ∨ c = 't' := by
    simp only [List.mem_cons, List.not_mem_nil, or_false] at hc
    tauto
  rcases this with rfl | rfl | rfl | rfl | rfl <;> unfold IdChar <;> decide

/-- The file for the JavaScript program. -/
theorem js_file {o : JO} (hk : keysOkO KeyOk o) (hn : (o.toList.map Prod.fst).Nodup) (hd : distinctO o)
    (hp : "__proto__" ∉ o.toList.map Prod.fst) :
    (jsOkO o = false → jsQual "" (jsDom (.obj o)) .nil = none) ∧
    (jsOkO o = true → ∃ m, jsQual "" (jsDom (.obj o)) .nil = some m ∧ m.toList = named (leavesO [] o)) := by
  have hD : distinct (.obj o) := ⟨hn, hd⟩
  rw [jsDom_eq _ hD]
  have hq := jsQual_eq (.obj o) [] .nil (.inl rfl) (keysOk_mono (fun k (h : KeyOk k) => h.1) (.obj o) hk)
  change jsQual "" _ _ = _ at hq
  have hok : jsOk (.obj o) = jsOkO o := by simp only [jsOk]
  have hle : leaves [] (.obj o) = leavesO [] o := by simp only [leaves]
  rw [hle] at hq
  refine ⟨fun h => by rw [hq, if_neg (by rw [hok, h]; simp)], fun h => ?_⟩
  rw [hq, if_pos (by rw [hok, h])]
  refine ⟨_, rfl, ?_⟩
  have hnd := names_nodup o hk hn hd
  rw [stores_eq _ .nil (by simpa only [JO.toList, List.nil_append] using hnd)]
  · simp [JO.toList]
  · intro hm
    obtain ⟨e, he, h1⟩ := List.mem_map.1 hm
    obtain ⟨x, hx, rfl⟩ := List.mem_map.1 he
    obtain ⟨k, r, h0, hko, h2, h3⟩ := leavesO_path o [] hk x hx
    simp only at h1
    rw [h2] at h1
    simp only [List.nil_append, text] at h1
    exact hp (proto_text hko.2 h3 h1 ▸ h0)

/-! ### Acceptance of files that follow the declarations -/

variable {buses : List (List Field)} {val : Nat → Sc}

/-- The type `check_type` finds. -/
def ty (bus : Option Nat) : List Nat → Kind
  | [] => if bus.isSome then .object else .integer
  | d :: ds => if d = 0 then .null else ty bus ds

theorem fields_mem : ∀ {fields : List Field} {s n : Nat} {es : List (String × J)}, Fields buses val fields s n es →
    es.map Prod.fst = fields.map Field.name ∧
    ∀ e ∈ es, ∃ f ∈ fields, e.1 = f.name ∧ ∃ s n, Arr buses val f.bus f.dims s n e.2
  | [], s, n, es, h => by cases h; simp
  | f :: fs, s, n, es, h => by
    cases h with
    | cons h hs =>
      obtain ⟨i1, i2⟩ := fields_mem hs
      refine ⟨by simp [i1], ?_⟩
      intro e he
      rcases List.mem_cons.1 he with rfl | he
      · exact ⟨f, by simp, rfl, _, _, h⟩
      · obtain ⟨g, hg, h1, h2⟩ := i2 e he
        exact ⟨g, by simp [hg], h1, h2⟩

/-- Buses whose fields have names, distinct within a bus. -/
def Named (buses : List (List Field)) : Prop :=
  ∀ fields ∈ buses, (fields.map Field.name).Nodup ∧ ∀ f ∈ fields, KeyOk f.name

section
variable (hb : Named buses)
include hb

mutual
theorem keys_arr : ∀ (j : J) {bus : Option Nat} {dims : List Nat} {s n : Nat}, Arr buses val bus dims s n j →
    keysOk KeyOk j ∧ distinct j
  | .sc _, _, _, _, _, _ => ⟨trivial, trivial⟩
  | .arr l, bus, dims, s, n, h => by
    cases h with
    | elem h => cases h
    | arr h => exact keys_elems l h
  | .obj o, bus, dims, s, n, h => by
    cases h with
    | elem h =>
      cases h with
      | @bus b fields _ _ es _ h1 h2 h3 =>
        obtain ⟨hn, hid⟩ := hb fields (List.mem_of_getElem? h1)
        obtain ⟨f1, f2⟩ := fields_mem h2
        have hk := keys_entries o (fun e he => by
          obtain ⟨f, hf, e1, s', n', e2⟩ := f2 e (h3.mem_iff.1 he)
          exact ⟨e1 ▸ hid f hf, _, _, _, _, e2⟩)
        exact ⟨hk.1, (h3.map Prod.fst).nodup_iff.2 (by rw [f1]; exact hn), hk.2⟩

theorem keys_elems : ∀ (l : JL) {bus : Option Nat} {ds : List Nat} {d s n : Nat}, Elems buses val bus ds d s n l →
    keysOkL KeyOk l ∧ distinctL l
  | .nil, _, _, _, _, _, _ => ⟨trivial, trivial⟩
  | .cons j l, bus, ds, d, s, n, h => by
    cases h with
    | cons h hl =>
      have h1 := keys_arr j h
      have h2 := keys_elems l hl
      exact ⟨⟨h1.1, h2.1⟩, ⟨h1.2, h2.2⟩⟩

theorem keys_entries : ∀ (o : JO), (∀ e ∈ o.toList, KeyOk e.1 ∧ ∃ bus dims s n, Arr buses val bus dims s n e.2) →
    keysOkO KeyOk o ∧ distinctO o
  | .nil, _ => ⟨trivial, trivial⟩
  | .cons k j o, h => by
    obtain ⟨hk, bus, dims, s, n, hj⟩ := h (k, j) (by simp [JO.toList])
    have h1 := keys_arr j hj
    have h2 := keys_entries o fun e he => h e (by simp [JO.toList, he])
    exact ⟨⟨hk, h1.1, h2.1⟩, ⟨h1.2, h2.2⟩⟩
end
end

section
variable (hv : ∀ s, kindSc (val s) = .integer)
include hv

mutual
theorem cppOk_arr : ∀ (j : J) {bus : Option Nat} {dims : List Nat} {s n : Nat}, Arr buses val bus dims s n j →
    checkType j = some (ty bus dims) ∧ cppOk j = true ∧ cppOkE j = true
  | .sc _, bus, dims, s, n, h => by
    cases h with
    | elem h => cases h; exact ⟨by simp [checkType, ty, hv], rfl, rfl⟩
  | .arr .nil, bus, dims, s, n, h => by
    cases h with
    | elem h => cases h
    | arr h => cases h; exact ⟨rfl, rfl, rfl⟩
  | .arr (.cons j l), bus, dims, s, n, h => by
    cases h with
    | elem h => cases h
    | arr h =>
      cases h with
      | cons h hl =>
        rename_i ds d m n
        obtain ⟨h1, _, h3⟩ := cppOk_arr j h
        obtain ⟨l1, l2⟩ := cppOk_elems l hl
        have ht : checkType (.arr (.cons j l)) = some (ty bus ds) := by
          simp only [checkType, h1, l1, if_true]
        refine ⟨by rw [ht]; simp [ty], ?_, ?_⟩
        · simp only [cppOk, cppOkL, ht, h3, l2]; simp
        · simp only [cppOkE, cppOkL, h3, l2]; rfl
  | .obj o, bus, dims, s, n, h => by
    cases h with
    | elem h =>
      cases h with
      | @bus b fields _ _ es _ h1 h2 h3 =>
        obtain ⟨f1, f2⟩ := fields_mem h2
        have hk := cppOk_entries o (fun e he => by
          obtain ⟨f, hf, e1, s', n', e2⟩ := f2 e (h3.mem_iff.1 he)
          exact ⟨_, _, _, _, e2⟩)
        exact ⟨rfl, hk, hk⟩

theorem cppOk_elems : ∀ (l : JL) {bus : Option Nat} {ds : List Nat} {d s n : Nat}, Elems buses val bus ds d s n l →
    checkRest (ty bus ds) l = true ∧ cppOkL l = true
  | .nil, _, _, _, _, _, _ => ⟨rfl, rfl⟩
  | .cons j l, bus, ds, d, s, n, h => by
    cases h with
    | cons h hl =>
      obtain ⟨h1, _, h3⟩ := cppOk_arr j h
      obtain ⟨l1, l2⟩ := cppOk_elems l hl
      exact ⟨by simp [checkRest, h1, l1], by simp [cppOkL, h3, l2]⟩

theorem cppOk_entries : ∀ (o : JO), (∀ e ∈ o.toList, ∃ bus dims s n, Arr buses val bus dims s n e.2) → cppOkO o = true
  | .nil, _ => rfl
  | .cons k j o, h => by
    obtain ⟨bus, dims, s, n, hj⟩ := h (k, j) (by simp [JO.toList])
    have h1 := cppOk_arr j hj
    have h2 := cppOk_entries o fun e he => h e (by simp [JO.toList, he])
    simp [cppOkO, h1.2.1, h2]
end
end

mutual
theorem flat_bus : ∀ (j : J) {b : Nat} {dims : List Nat} {s n : Nat}, Arr buses val (some b) dims s n j →
    ∀ x ∈ flat j, ∃ o, x = .obj o
  | .sc _, b, dims, s, n, h => by
    cases h with
    | elem h => cases h
  | .arr l, b, dims, s, n, h => by
    cases h with
    | elem h => cases h
    | arr h => simp only [flat]; exact flatL_bus l h
  | .obj o, b, dims, s, n, h => by simp [flat]

theorem flatL_bus : ∀ (l : JL) {b : Nat} {ds : List Nat} {d s n : Nat}, Elems buses val (some b) ds d s n l →
    ∀ x ∈ flatL l, ∃ o, x = .obj o
  | .nil, _, _, _, _, _, _ => by simp [flatL]
  | .cons j l, b, ds, d, s, n, h => by
    cases h with
    | cons h hl =>
      simp only [flatL, List.mem_append]
      rintro x (hx | hx)
      · exact flat_bus j h x hx
      · exact flatL_bus l hl x hx
end

/-- The values of an elementary entry are of one type. -/
def Uniform (e : J) : Prop := ∀ a ∈ flat e, ∀ b ∈ flat e, typeof a = typeof b

theorem jsCheck_some {l : List J} {t : Bool} (h : ∀ a ∈ l, ∀ b ∈ l, typeof a = typeof b)
    (ht : ∀ a ∈ l, (typeof a = .object) ↔ t = true) : jsCheck l = some (!l.isEmpty && t) := by
  cases l with
  | nil => rfl
  | cons a as =>
    show (if (as.all fun x => decide (typeof x = typeof a)) = true then some (decide (typeof a = Typ.object)) else none) = _
    rw [if_pos]
    · have := ht a (by simp)
      cases t <;> simp_all
    · rw [List.all_eq_true]
      intro x hx
      simpa using h x (by simp [hx]) a (by simp)

section
variable (hv : ∀ s, typeofSc (val s) ≠ .object)
include hv

theorem val_null (s : Nat) : val s ≠ .null := fun e => hv s (by rw [e]; rfl)

mutual
theorem jsOk_arr : ∀ (j : J) {bus : Option Nat} {dims : List Nat} {s n : Nat} (p : List Seg), Arr buses val bus dims s n j →
    ((∀ e ∈ leaves p j, Uniform e.2) → jsOk j = true) ∧ ((∀ e ∈ leavesE p j, Uniform e.2) → jsOkE j = true)
  | .sc _, bus, dims, s, n, p, h => by
    cases h with
    | elem h => cases h; simp [jsOk, jsOkE, val_null hv]
  | .obj o, bus, dims, s, n, p, h => by
    cases h with
    | elem h =>
      cases h with
      | @bus b fields _ _ es _ h1 h2 h3 =>
        obtain ⟨f1, f2⟩ := fields_mem h2
        have hk := jsOk_entries o p (fun e he => by
          obtain ⟨f, hf, e1, s', n', e2⟩ := f2 e (h3.mem_iff.1 he)
          exact ⟨_, _, _, _, e2⟩)
        simp only [leaves, leavesE, jsOk, jsOkE]
        exact ⟨hk, hk⟩
  | .arr l, bus, dims, s, n, p, h => by
    have h' := h
    cases h with
    | elem h => cases h
    | arr h =>
      have hl := jsOk_elems l p 0 h
      refine ⟨fun hu => ?_, by simp only [leavesE, jsOkE]; exact hl⟩
      simp only [jsOk]
      cases bus with
      | none =>
        obtain ⟨_, h2, h3⟩ := arr_signals _ h'
        simp only [hasObj] at h3
        simp only [leaves, h3, Bool.false_eq_true, if_false, List.mem_singleton, forall_eq] at hu
        have hs := jsCheck_some (l := flatL l) (t := false) hu (by
          intro a ha
          rw [show flatL l = texts val s n from h2] at ha
          obtain ⟨k, _, rfl⟩ := List.mem_map.1 ha
          simpa [typeof] using hv k)
        rw [hs]
        simp
      | some b =>
        have hf := flatL_bus l h
        have hs := jsCheck_some (l := flatL l) (t := true) (by
          intro a ha b hb
          obtain ⟨o, rfl⟩ := hf a ha
          obtain ⟨o', rfl⟩ := hf b hb
          rfl) (by
          intro a ha
          obtain ⟨o, rfl⟩ := hf a ha
          simp [typeof])
        rw [hs]
        cases he : flatL l with
        | nil => simp
        | cons a as =>
          have ho : hasObjL l = true := by
            rw [flatL_hasObj]
            obtain ⟨o, h⟩ := hf a (by rw [he]; simp)
            exact ⟨o, by rw [← h, he]; simp⟩
          simp only [leaves, ho, if_true] at hu
          simp [hl hu]

theorem jsOk_elems : ∀ (l : JL) {bus : Option Nat} {ds : List Nat} {d s n : Nat} (p : List Seg) (i : Nat),
    Elems buses val bus ds d s n l → (∀ e ∈ leavesL p l i, Uniform e.2) → jsOkL l = true
  | .nil, _, _, _, _, _, _, _, _, _ => rfl
  | .cons j l, bus, ds, d, s, n, p, i, h, hu => by
    cases h with
    | cons h hl =>
      simp only [leavesL, List.mem_append] at hu
      have h1 := (jsOk_arr j (p ++ [.idx i]) h).2 fun e he => hu e (.inl he)
      have h2 := jsOk_elems l p (i + 1) hl fun e he => hu e (.inr he)
      simp [jsOkL, h1, h2]

theorem jsOk_entries : ∀ (o : JO) (p : List Seg), (∀ e ∈ o.toList, ∃ bus dims s n, Arr buses val bus dims s n e.2) →
    (∀ e ∈ leavesO p o, Uniform e.2) → jsOkO o = true
  | .nil, _, _, _ => rfl
  | .cons k j o, p, h, hu => by
    obtain ⟨bus, dims, s, n, hj⟩ := h (k, j) (by simp [JO.toList])
    simp only [leavesO, List.mem_append] at hu
    have h1 := (jsOk_arr j (p ++ [.field k]) hj).1 fun e he => hu e (.inl he)
    have h2 := jsOk_entries o p (fun e he => h e (by simp [JO.toList, he])) fun e he => hu e (.inr he)
    simp [jsOkO, h1, h2]
end
end

/-! ### The whole file -/

mutual
theorem leaves_prefix (a : List Seg) : ∀ (j : J) (p : List Seg), leaves (a ++ p) j = (leaves p j).map fun e => (a ++ e.1, e.2)
  | .sc s, p => by simp [leaves]
  | .arr l, p => by
    simp only [leaves]
    split
    · exact leavesL_prefix a l p 0
    · simp
  | .obj o, p => by simp only [leaves]; exact leavesO_prefix a o p

theorem leavesE_prefix (a : List Seg) : ∀ (j : J) (p : List Seg), leavesE (a ++ p) j = (leavesE p j).map fun e => (a ++ e.1, e.2)
  | .sc s, p => by simp [leavesE]
  | .arr l, p => by simp only [leavesE]; exact leavesL_prefix a l p 0
  | .obj o, p => by simp only [leavesE]; exact leavesO_prefix a o p

theorem leavesL_prefix (a : List Seg) : ∀ (l : JL) (p : List Seg) (i : Nat),
    leavesL (a ++ p) l i = (leavesL p l i).map fun e => (a ++ e.1, e.2)
  | .nil, p, i => rfl
  | .cons j l, p, i => by
    simp only [leavesL, List.map_append]
    rw [List.append_assoc, leavesE_prefix a j, leavesL_prefix a l]

theorem leavesO_prefix (a : List Seg) : ∀ (o : JO) (p : List Seg), leavesO (a ++ p) o = (leavesO p o).map fun e => (a ++ e.1, e.2)
  | .nil, p => rfl
  | .cons k j o, p => by
    simp only [leavesO, List.map_append]
    rw [List.append_assoc, leaves_prefix a j, leavesO_prefix a o]
end

/-- A name of the list of inputs with the texts of its signals. -/
def nameTexts (val : Nat → Sc) (i : HashMap.Info) : String × List J := (i.name, texts val i.start i.size)

/-- A leaf of a file by its name. -/
def leafTexts (e : List Seg × J) : String × List J := (text e.1, flat e.2)

theorem decl_agree {fm : List (List FData)} {F : Nat} (hfm : fieldMap buses F = .ok fm) {d : Decl} (hd : DeclOk buses F d)
    (hs : d.bus = none → d.size = prod d.dims) {n : Nat} {j : J} (h : Arr buses val d.bus d.dims d.start n j) :
    n = d.size ∧ ∃ x, declLeaves fm F d = .ok x ∧
      ((leaves [.field d.name] j).map leafTexts).Perm ((x.map (toInfo d)).map (nameTexts val)) := by
  have key : n = d.size ∧ ∃ x, declLeaves fm F d = .ok x ∧ ((leaves [] j).map fileLeaf).Perm (x.map (nameLeaf val)) := by
    cases hb : d.bus with
    | none =>
      rw [hb] at h
      have hm := (arr_signals _ h).1
      rw [← hs hb] at hm
      refine ⟨hm, [⟨[], d.start, d.size⟩], by simp [declLeaves, hb], ?_⟩
      rw [leaves_signals h, hm]
      exact List.Perm.refl _
    | some b =>
      rw [hb] at h
      obtain ⟨h0, is, m, hbb, hsz⟩ := hd.2 b hb
      obtain ⟨a1, a2, a3⟩ := arr_buses (bus_agrees hfm F b is m le_rfl hbb) _ h
      obtain ⟨y, hy, hp⟩ := a3 []
      refine ⟨by rw [a1, hsz], y, ?_, ?_⟩
      · simp only [declLeaves, hb, busLeaves, if_neg h0]
        rw [hsz, Nat.mul_div_cancel _ (by omega)]
        exact hy
      · rw [leaves_of_leavesE (a2 h0)]
        exact hp
  obtain ⟨k1, x, k2, k3⟩ := key
  refine ⟨k1, x, k2, ?_⟩
  have e1 : (leaves [.field d.name] j).map leafTexts =
      ((leaves [] j).map fileLeaf).map fun e => (render d.name e.1, e.2) := by
    have := leaves_prefix [.field d.name] j []
    rw [List.append_nil] at this
    rw [this]
    simp [fileLeaf, leafTexts, text, Function.comp_def]
  have e2 : (x.map (toInfo d)).map (nameTexts val) = (x.map (nameLeaf val)).map fun e => (render d.name e.1, e.2) := by
    simp [nameLeaf, nameTexts, toInfo, Function.comp_def]
  rw [e1, e2]
  exact k3.map _

/-- The declarations as fields. -/
def declField (d : Decl) : Field := ⟨d.name, d.dims, d.bus⟩

theorem decls_agree {fm : List (List FData)} {F : Nat} (hfm : fieldMap buses F = .ok fm) : ∀ (ds : List Decl),
    (∀ d ∈ ds, DeclOk buses F d) → (∀ d ∈ ds, d.bus = none → d.size = prod d.dims) → ∀ (s e n : Nat) (es : List (String × J)),
    Covers s (ds.map fun d => (d.start, d.size)) e → Fields buses val (ds.map declField) s n es →
    ∃ l, withQualifiers fm F ds = .ok l ∧
      ((es.flatMap fun e => leaves [.field e.1] e.2).map leafTexts).Perm (l.map (nameTexts val))
  | [], _, _, s, e, n, es, hc, hf => by
    cases hf
    exact ⟨[], rfl, by simp⟩
  | d :: ds, hd, hs, s, e, n, es, hc, hf => by
    cases hf with
    | @cons _ _ _ m n j es h1 h2 =>
      have hst : d.start = s := hc.1
      subst hst
      obtain ⟨k1, x, k2, k3⟩ := decl_agree hfm (hd d (by simp)) (hs d (by simp)) h1
      obtain ⟨l, hl, hp⟩ := decls_agree hfm ds (fun d' h => hd d' (by simp [h])) (fun d' h => hs d' (by simp [h]))
        (d.start + d.size) e n es hc.2 (by rw [← k1]; exact h2)
      refine ⟨x.map (toInfo d) ++ l, by simp only [withQualifiers, k2, hl], ?_⟩
      simp only [List.flatMap_cons, List.map_append]
      exact k3.append hp

end Verif.JsonIn
