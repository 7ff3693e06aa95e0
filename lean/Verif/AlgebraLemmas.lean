import Verif.Algebra
import Verif.CMapLemmas
import Verif.ModArithLemmas

/-! Helper lemmas about the model of `algebra.rs`. -/

set_option linter.unusedSectionVars false

namespace Verif.Algebra
open Verif.ModArith (Res Fail)

variable {K : Type} [DecidableEq K] [Inhabited K] {p : Nat}

/-! ### initConst, initSymbol -/

theorem get_initConst (m : CMap K) (k : K) :
    (initConst m).get k = if k = default ∧ m.get default = none then some 0 else m.get k := by
  unfold initConst CMap.contains
  cases h : m.get default with
  | none =>
    simp only [Option.isSome_none, Bool.false_eq_true, if_false, CMap.get_insert]
    by_cases hk : k = default
    · simp [hk]
    · simp [hk, Ne.symm hk]
  | some v => simp

theorem mem_keys_initConst (m : CMap K) (k : K) : k ∈ (initConst m).keys ↔ k = default ∨ k ∈ m.keys := by
  unfold initConst
  split
  · rename_i h
    rw [CMap.contains_iff] at h
    constructor
    · exact Or.inr
    · rintro (rfl | h')
      · exact h
      · exact h'
  · rw [CMap.mem_keys_insert]

theorem initConst_contains (m : CMap K) : (initConst m).contains default = true := by
  rw [CMap.contains_iff, mem_keys_initConst]; exact Or.inl rfl

theorem ev_initConst (ρ : K → ZMod p) (m : CMap K) : ev ρ (initConst m) = ev ρ m := by
  unfold initConst
  split
  · rfl
  · rename_i h
    have : m.get default = none := by
      unfold CMap.contains at h; simpa using h
    rw [ev_insert, this]; simp

theorem wf_initConst {m : CMap K} (h : m.WF) : (initConst m).WF := by
  unfold initConst; split
  · exact h
  · exact CMap.wf_insert h _ _

theorem canon_initConst (hp : 0 < p) {m : CMap K} (h : CanonMap p m) : CanonMap p (initConst m) := by
  unfold initConst; split
  · exact h
  · exact canon_insert h ⟨le_refl _, by exact_mod_cast hp⟩

theorem validMap_initConst {m : CMap K} (h : m.WF) : ValidMap (initConst m) :=
  ⟨wf_initConst h, initConst_contains m⟩

theorem get_initSymbol (s : K) (m : CMap K) (k : K) :
    (initSymbol s m).get k = if k = s ∧ m.get s = none then some 0 else m.get k := by
  unfold initSymbol CMap.contains
  cases h : m.get s with
  | none =>
    simp only [Option.isSome_none, Bool.false_eq_true, if_false, CMap.get_insert]
    by_cases hk : k = s
    · simp [hk]
    · simp [hk, Ne.symm hk]
  | some v => simp

theorem ev_initSymbol (ρ : K → ZMod p) (s : K) (m : CMap K) : ev ρ (initSymbol s m) = ev ρ m := by
  unfold initSymbol
  split
  · rfl
  · rename_i h
    have : m.get s = none := by
      unfold CMap.contains at h; simpa using h
    rw [ev_insert, this]; simp

theorem wf_initSymbol {m : CMap K} (h : m.WF) (s : K) : (initSymbol s m).WF := by
  unfold initSymbol; split
  · exact h
  · exact CMap.wf_insert h _ _

theorem canon_initSymbol (hp : 0 < p) {m : CMap K} (h : CanonMap p m) (s : K) : CanonMap p (initSymbol s m) := by
  unfold initSymbol; split
  · exact h
  · exact canon_insert h ⟨le_refl _, by exact_mod_cast hp⟩

theorem mem_keys_initSymbol (s : K) (m : CMap K) (k : K) : k ∈ (initSymbol s m).keys ↔ k = s ∨ k ∈ m.keys := by
  unfold initSymbol
  split
  · rename_i h
    rw [CMap.contains_iff] at h
    constructor
    · exact Or.inr
    · rintro (rfl | h')
      · exact h
      · exact h'
  · rw [CMap.mem_keys_insert]

/-! ### addSymbol, addCoefs, mulCoefs, addConst, divCoefs -/

theorem mod_range (hp : 0 < p) (x : Int) : 0 ≤ ModArith.modulus x p ∧ ModArith.modulus x p < p :=
  ⟨ModArith.modulus_nonneg _ (by exact_mod_cast hp), ModArith.modulus_lt _ (by exact_mod_cast hp)⟩

theorem ev_addSymbol (hp : 0 < p) (ρ : K → ZMod p) (s : K) (c : Int) (m : CMap K) :
    ev ρ (addSymbol s c m p) = ev ρ m + (c : ZMod p) * ρ s := by
  unfold addSymbol
  simp only []
  rw [ev_insert, ev_initSymbol, ModArith.add_cast _ _ _ hp]
  ring

theorem get_addSymbol (s : K) (c : Int) (m : CMap K) (k : K) (f : Int) :
    (addSymbol s c m f).get k = if k = s then some (ModArith.add ((m.get s).getD 0) c f) else m.get k := by
  unfold addSymbol
  simp only [CMap.get_insert, get_initSymbol]
  by_cases h : k = s
  · subst h
    cases h : m.get k <;> simp
  · simp [h, Ne.symm h]

theorem wf_addSymbol {m : CMap K} (h : m.WF) (s : K) (c f : Int) : (addSymbol s c m f).WF :=
  CMap.wf_insert (wf_initSymbol h s) _ _

theorem canon_addSymbol (hp : 0 < p) {m : CMap K} (h : CanonMap p m) (s : K) (c : Int) :
    CanonMap p (addSymbol s c m p) :=
  canon_insert (canon_initSymbol hp h s) (mod_range hp _)

theorem mem_keys_addSymbol (s : K) (c : Int) (m : CMap K) (f : Int) (k : K) :
    k ∈ (addSymbol s c m f).keys ↔ k = s ∨ k ∈ m.keys := by
  unfold addSymbol
  simp only [CMap.mem_keys_insert, mem_keys_initSymbol]
  tauto

theorem ev_addCoefs (hp : 0 < p) (ρ : K → ZMod p) (m0 m1 : CMap K) :
    ev ρ (addCoefs m0 m1 p) = ev ρ m0 + ev ρ m1 := by
  unfold addCoefs
  induction m0 generalizing m1 with
  | nil => simp [ev_nil]
  | cons e m0 ih =>
    rw [List.foldl_cons, ih, ev_addSymbol hp, ev_cons]; ring

theorem wf_addCoefs (m0 : CMap K) {m1 : CMap K} (h : m1.WF) (f : Int) : (addCoefs m0 m1 f).WF := by
  unfold addCoefs
  induction m0 generalizing m1 with
  | nil => exact h
  | cons e m0 ih => exact ih (wf_addSymbol h _ _ _)

theorem canon_addCoefs (hp : 0 < p) (m0 : CMap K) {m1 : CMap K} (h : CanonMap p m1) :
    CanonMap p (addCoefs m0 m1 p) := by
  unfold addCoefs
  induction m0 generalizing m1 with
  | nil => exact h
  | cons e m0 ih => exact ih (canon_addSymbol hp h _ _)

theorem mem_keys_addCoefs (m0 m1 : CMap K) (f : Int) (k : K) :
    k ∈ (addCoefs m0 m1 f).keys ↔ k ∈ m0.keys ∨ k ∈ m1.keys := by
  unfold addCoefs
  induction m0 generalizing m1 with
  | nil => simp
  | cons e m0 ih =>
    rw [List.foldl_cons, ih, mem_keys_addSymbol, CMap.keys_cons, List.mem_cons]
    tauto

theorem ev_mulCoefs (hp : 0 < p) (ρ : K → ZMod p) (c : Int) (m : CMap K) :
    ev ρ (mulCoefs c m p) = (c : ZMod p) * ev ρ m := by
  unfold mulCoefs
  induction m with
  | nil => simp [ev_nil]
  | cons e m ih => rw [List.map_cons, ev_cons, ev_cons, ih, ModArith.mul_cast _ _ _ hp]; ring

theorem keys_mulCoefs (c : Int) (m : CMap K) (f : Int) : (mulCoefs c m f).keys = m.keys := by
  simp [mulCoefs, CMap.keys, Function.comp_def]

theorem wf_mulCoefs {m : CMap K} (h : m.WF) (c f : Int) : (mulCoefs c m f).WF := by
  unfold CMap.WF; rw [keys_mulCoefs]; exact h

theorem canon_mulCoefs (hp : 0 < p) (c : Int) (m : CMap K) : CanonMap p (mulCoefs c m p) := by
  intro e he
  obtain ⟨e', _, rfl⟩ := List.mem_map.1 he
  exact mod_range hp _

theorem get_mulCoefs (c : Int) (m : CMap K) (f : Int) (k : K) :
    (mulCoefs c m f).get k = (m.get k).map fun v => ModArith.mul v c f := by
  unfold mulCoefs
  induction m with
  | nil => simp [CMap.get]
  | cons e m ih =>
    obtain ⟨k', v⟩ := e
    simp only [List.map_cons, CMap.get]
    split
    · simp
    · exact ih

theorem contains_of_keys {m m' : CMap K} (h : ∀ k, k ∈ m.keys → k ∈ m'.keys) {k : K}
    (hk : m.contains k = true) : m'.contains k = true :=
  (CMap.contains_iff _ _).2 (h k ((CMap.contains_iff _ _).1 hk))

theorem validMap_addSymbol {m : CMap K} (h : ValidMap m) (s : K) (c f : Int) : ValidMap (addSymbol s c m f) :=
  ⟨wf_addSymbol h.1 _ _ _, contains_of_keys (fun _ hk => (mem_keys_addSymbol _ _ _ _ _).2 (Or.inr hk)) h.2⟩

theorem validMap_addCoefs (m0 : CMap K) {m : CMap K} (h : ValidMap m) (f : Int) : ValidMap (addCoefs m0 m f) :=
  ⟨wf_addCoefs _ h.1 _, contains_of_keys (fun _ hk => (mem_keys_addCoefs _ _ _ _).2 (Or.inr hk)) h.2⟩

theorem validMap_mulCoefs {m : CMap K} (h : ValidMap m) (c f : Int) : ValidMap (mulCoefs c m f) :=
  ⟨wf_mulCoefs h.1 _ _, contains_of_keys (fun k hk => by rw [keys_mulCoefs]; exact hk) h.2⟩

theorem validMap_zeroMap : ValidMap (zeroMap : CMap K) := validMap_initConst CMap.wf_nil

theorem canon_zeroMap (hp : 0 < p) : CanonMap p (zeroMap : CMap K) := canon_initConst hp (by intro e he; simp at he)

theorem ev_zeroMap (ρ : K → ZMod p) : ev ρ (zeroMap : CMap K) = 0 := by
  unfold zeroMap; rw [ev_initConst]; rfl

theorem addConst_spec (hp : 0 < p) {m : CMap K} (hv : ValidMap m) (v : Int) :
    ∃ m', addConst v m p = .ok m' ∧ ValidMap m' ∧ (CanonMap p m → CanonMap p m') ∧
      (∀ ρ : K → ZMod p, ρ default = 1 → ev ρ m' = ev ρ m + v) ∧ (∀ k, k ∈ m'.keys ↔ k ∈ m.keys) := by
  have h := hv.2
  unfold CMap.contains at h
  obtain ⟨w, hw⟩ := Option.isSome_iff_exists.1 h
  refine ⟨_, by simp [addConst, hw]; rfl, ⟨CMap.wf_insert hv.1 _ _, ?_⟩, ?_, ?_, ?_⟩
  · exact contains_of_keys (fun k hk => (CMap.mem_keys_insert _ _ _ _).2 (Or.inr hk)) hv.2
  · intro hc; exact canon_insert hc (mod_range hp _)
  · intro ρ hρ
    rw [ev_insert, hw, ModArith.add_cast _ _ _ hp, hρ]; simp
  · intro k
    rw [CMap.mem_keys_insert]
    constructor
    · rintro (rfl | h')
      · exact (CMap.contains_iff _ _).1 hv.2
      · exact h'
    · exact Or.inr

theorem divCoefs_ok (hp : 0 < p) {c : Int} {m m' : CMap K} (h : divCoefs c m p = .ok m') :
    (∀ ρ : K → ZMod p, ev ρ m' * (c : ZMod p) = ev ρ m) ∧ m'.keys = m.keys ∧ CanonMap p m' := by
  unfold divCoefs at h
  split at h
  · cases h
  · rename_i inv hinv
    injection h with h
    subst h
    refine ⟨?_, keys_mulCoefs _ _ _, canon_mulCoefs hp _ _⟩
    intro ρ
    have := ModArith.div_ok_cast hp hinv
    rw [ev_mulCoefs hp]
    calc (inv : ZMod p) * ev ρ m * c = ((inv : ZMod p) * c) * ev ρ m := by ring
      _ = ev ρ m := by rw [this]; simp

/-! ### removeZeros -/

theorem ev_removeZeros (ρ : K → ZMod p) (m : CMap K) : ev ρ (removeZeros m) = ev ρ m := by
  unfold removeZeros
  induction m with
  | nil => rfl
  | cons e m ih =>
    rw [List.filter_cons, ev_cons]
    split
    · rw [ev_cons, ih]
    · rename_i h
      have : e.2 = 0 := by simpa using h
      rw [ih, this]; simp

theorem mem_removeZeros {m : CMap K} {e : K × Int} : e ∈ removeZeros m ↔ e ∈ m ∧ e.2 ≠ 0 := by
  simp [removeZeros]

theorem noZero_removeZeros (m : CMap K) : NoZero (removeZeros m) := fun _ he => (mem_removeZeros.1 he).2

theorem keys_removeZeros_sub {m : CMap K} {k : K} (h : k ∈ (removeZeros m).keys) : k ∈ m.keys := by
  obtain ⟨e, he, rfl⟩ := List.mem_map.1 h
  exact List.mem_map.2 ⟨e, (mem_removeZeros.1 he).1, rfl⟩

theorem wf_removeZeros {m : CMap K} (h : m.WF) : (removeZeros m).WF :=
  List.Nodup.sublist (List.Sublist.map _ List.filter_sublist) h

theorem canon_removeZeros {m : CMap K} (h : CanonMap p m) : CanonMap p (removeZeros m) :=
  fun e he => h e (mem_removeZeros.1 he).1

/-! ### rawSubstitution -/

theorem ev_rawSubstitution (hp : 0 < p) (ρ : K → ZMod p) {m : CMap K} (hw : m.WF) (s : Substitution K) :
    ev ρ (rawSubstitution m s p) =
      ev ρ m + ((((initConst m).get s.frm).getD 0 : Int) : ZMod p) * (ev ρ s.rhs - ρ s.frm) := by
  unfold rawSubstitution
  simp only []
  cases h : (initConst m).get s.frm with
  | none => simp [ev_initConst]
  | some v =>
    simp only []
    rw [ev_addCoefs hp, ev_mulCoefs hp, ev_remove ρ (wf_initConst hw), ev_initConst, ev_initConst, h]
    simp; ring

theorem wf_rawSubstitution {m : CMap K} (hw : m.WF) (s : Substitution K) (f : Int) : (rawSubstitution m s f).WF := by
  unfold rawSubstitution
  simp only []
  split
  · exact wf_initConst hw
  · exact wf_addCoefs _ (CMap.wf_remove (wf_initConst hw) _) _

theorem canon_rawSubstitution (hp : 0 < p) {m : CMap K} (hc : CanonMap p m) (s : Substitution K) :
    CanonMap p (rawSubstitution m s p) := by
  unfold rawSubstitution
  simp only []
  split
  · exact canon_initConst hp hc
  · exact canon_addCoefs hp _ (canon_remove (canon_initConst hp hc) _)

theorem mem_keys_rawSubstitution (m : CMap K) (s : Substitution K) (f : Int) (k : K) :
    k ∈ (rawSubstitution m s f).keys ↔
      if s.frm = default ∨ s.frm ∈ m.keys then
        ((k ≠ s.frm ∧ (k = default ∨ k ∈ m.keys)) ∨ k = default ∨ k ∈ s.rhs.keys)
      else (k = default ∨ k ∈ m.keys) := by
  unfold rawSubstitution
  simp only []
  cases h : (initConst m).get s.frm with
  | none =>
    have := (CMap.get_eq_none_iff _ _).1 h
    rw [mem_keys_initConst] at this
    rw [if_neg this, mem_keys_initConst]
  | some v =>
    have : s.frm ∈ (initConst m).keys := by rw [← CMap.get_isSome_iff, h]; rfl
    rw [mem_keys_initConst] at this
    rw [if_pos this]
    simp only []
    rw [mem_keys_addCoefs, keys_mulCoefs, mem_keys_initConst, CMap.mem_keys_remove, mem_keys_initConst]
    tauto

end Verif.Algebra

namespace Verif.Algebra
open Verif.ModArith (Res Fail)

/-! ### Renaming -/

theorem insert_of_not_mem {K : Type} [DecidableEq K] {m : CMap K} {k : K} (v : Int) (h : k ∉ m.keys) :
    m.insert k v = m ++ [(k, v)] := by
  induction m with
  | nil => rfl
  | cons e m ih =>
    obtain ⟨k', v'⟩ := e
    rw [CMap.keys_cons, List.mem_cons] at h
    simp only [CMap.insert, List.cons_append]
    rw [if_neg (fun hh => h (Or.inl hh.symm)), ih (fun hh => h (Or.inr hh))]

theorem foldl_insert_rename {K K' : Type} [DecidableEq K] [DecidableEq K'] (f : K → K') (m : CMap K) :
    ∀ acc : CMap K', m.WF → (∀ x ∈ m.keys, ∀ y ∈ m.keys, f x = f y → x = y) →
      (∀ x ∈ m.keys, f x ∉ acc.keys) →
      m.foldl (fun acc e => CMap.insert acc (f e.1) e.2) acc = acc ++ m.map (fun e => (f e.1, e.2)) := by
  induction m with
  | nil => intro acc _ _ _; simp
  | cons e m ih =>
    intro acc hw hinj hdis
    obtain ⟨h1, h2⟩ := CMap.wf_cons.1 hw
    rw [List.foldl_cons, insert_of_not_mem _ (hdis e.1 (by simp)), ih _ h2]
    · simp
    · exact fun x hx y hy => hinj x (by simp [hx]) y (by simp [hy])
    · intro x hx
      have h3 := hdis x (by simp [hx])
      simp only [CMap.keys, List.map_append, List.map_cons, List.map_nil, List.mem_append, List.mem_singleton]
      rintro (h4 | h4)
      · exact h3 h4
      · have := hinj x (by simp [hx]) e.1 (by simp) h4
        subst this; exact h1 hx

theorem ev_rename {K K' : Type} [DecidableEq K] {p : Nat} (f : K → K') (ρ : K' → ZMod p) (m : CMap K) :
    ev ρ (m.map (fun e => (f e.1, e.2))) = ev (fun k => ρ (f k)) m := by
  simp [ev, Function.comp_def]

theorem keys_rename {K K' : Type} [DecidableEq K] [DecidableEq K'] (f : K → K') (m : CMap K) :
    CMap.keys (m.map (fun e => (f e.1, e.2))) = m.keys.map f := by
  simp [CMap.keys, Function.comp_def]

theorem wf_rename {K K' : Type} [DecidableEq K] [DecidableEq K'] (f : K → K') {m : CMap K} (h : m.WF)
    (hinj : ∀ x ∈ m.keys, ∀ y ∈ m.keys, f x = f y → x = y) : CMap.WF (m.map (fun e => (f e.1, e.2))) := by
  unfold CMap.WF
  rw [keys_rename]
  exact List.Nodup.map_on hinj h

theorem get_rename {K K' : Type} [DecidableEq K] [DecidableEq K'] (f : K → K') (m : CMap K) (k : K)
    (hinj : ∀ x ∈ m.keys, f x = f k → x = k) : CMap.get (m.map (fun e => (f e.1, e.2))) (f k) = m.get k := by
  induction m with
  | nil => simp [CMap.get]
  | cons e m ih =>
    obtain ⟨k', v⟩ := e
    simp only [List.map_cons, CMap.get]
    by_cases h : k' = k
    · subst h; simp
    · rw [if_neg h, if_neg (fun hh => h (hinj k' (by simp) hh))]
      exact ih (fun x hx => hinj x (by simp [hx]))

/-- The renaming performed by an offset: the constant wire stays, everything else moves. -/
def offsetMap (offset k : Nat) : Nat := if k = 0 then 0 else k + offset

theorem offsetMap_inj (offset : Nat) {x y : Nat} (h : offsetMap offset x = offsetMap offset y) : x = y := by
  unfold offsetMap at h; split at h <;> split at h <;> omega

theorem rawOffset_eq (m : CMap Nat) (hw : m.WF) (offset : Nat) :
    rawOffset m offset = m.map (fun e => (offsetMap offset e.1, e.2)) := by
  have h := foldl_insert_rename (offsetMap offset) m [] hw (fun x _ y _ h => offsetMap_inj offset h) (by simp)
  rw [List.nil_append] at h
  rw [← h]
  unfold rawOffset
  congr 1
  funext acc e
  unfold offsetMap
  by_cases h0 : e.1 = 0
  · simp [h0]
  · simp [h0]

/-- The renaming performed by a correspondence. -/
def corrMap {K K' : Type} [DecidableEq K] [Inhabited K] [Inhabited K'] (map : K → Option K') (k : K) : K' :=
  if k = default then default else (map k).getD default

theorem rawCorrespondence_ok {K K' : Type} [DecidableEq K] [Inhabited K] [DecidableEq K'] [Inhabited K']
    (m : CMap K) (map : K → Option K') (hdef : ∀ x ∈ m.keys, x ≠ default → (map x).isSome) :
    rawCorrespondence m map = .ok (m.foldl (fun acc e => CMap.insert acc (corrMap map e.1) e.2) []) := by
  unfold rawCorrespondence
  generalize ([] : CMap K') = acc
  induction m generalizing acc with
  | nil => rfl
  | cons e m ih =>
    rw [List.foldlM_cons, List.foldl_cons]
    by_cases h : e.1 = default
    · simp only [h, if_true]
      have := ih (fun x hx => hdef x (by simp [hx])) (CMap.insert acc default e.2)
      simp only [corrMap, if_true] at this ⊢
      exact this
    · obtain ⟨id, hid⟩ := Option.isSome_iff_exists.1 (hdef e.1 (by simp) h)
      have := ih (fun x hx => hdef x (by simp [hx])) (CMap.insert acc id e.2)
      have hc : corrMap map e.1 = id := by simp [corrMap, h, hid]
      simp only [h, if_false, hid, hc]
      exact this

theorem rawCorrespondence_panic {K K' : Type} [DecidableEq K] [Inhabited K] [DecidableEq K'] [Inhabited K']
    (m : CMap K) (map : K → Option K') (h : ∃ x ∈ m.keys, x ≠ default ∧ map x = none) :
    rawCorrespondence m map = .error .panic := by
  unfold rawCorrespondence
  generalize ([] : CMap K') = acc
  induction m generalizing acc with
  | nil => obtain ⟨x, hx, _⟩ := h; simp at hx
  | cons e m ih =>
    rw [List.foldlM_cons]
    obtain ⟨x, hx, hxd, hxm⟩ := h
    by_cases hd : e.1 = default
    · simp only [hd, if_true]
      have hx' : x ∈ CMap.keys m := by
        rcases List.mem_cons.1 hx with h' | h'
        · exact absurd (h'.trans hd) hxd
        · exact h'
      exact ih ⟨x, hx', hxd, hxm⟩ _
    · simp only [hd, if_false]
      cases he : map e.1 with
      | none => rfl
      | some id =>
        have hx' : x ∈ CMap.keys m := by
          rcases List.mem_cons.1 hx with h' | h'
          · rw [← h', hxm] at he; cases he
          · exact h'
        exact ih ⟨x, hx', hxd, hxm⟩ _

theorem rawWitness_ok (m : CMap Nat) (w : List Nat) (h : ∀ x ∈ m.keys, x < w.length) :
    rawWitness m w = .ok (m.foldl (fun acc e => CMap.insert acc (w.getD e.1 0) e.2) []) := by
  unfold rawWitness
  generalize ([] : CMap Nat) = acc
  induction m generalizing acc with
  | nil => rfl
  | cons e m ih =>
    rw [List.foldlM_cons, List.foldl_cons]
    have hlt := h e.1 (by simp)
    have := ih (fun x hx => h x (by simp [hx])) (CMap.insert acc (w.getD e.1 0) e.2)
    rw [List.getElem?_eq_getElem hlt]
    simp only []
    rw [← List.getD_eq_getElem w 0 hlt]
    exact this

end Verif.Algebra
