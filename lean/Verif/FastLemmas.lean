import Verif.Simplification
import Verif.ClustersLemmas
import Verif.Props.Algebra2

/-! Fast substitutions: equivalence and elimination. -/

set_option linter.unusedSectionVars false
set_option linter.unusedSimpArgs false

namespace Verif.Simplification
open Verif.ModArith (Res Fail)
open Verif.Algebra Verif.Linear Verif.Clusters Verif.Props.Algebra

variable {p : Nat}

/-! ### Constraints with distinct keys and canonical coefficients -/

structure Good (p : Nat) (c : C) : Prop where
  wa : c.a.WF
  wb : c.b.WF
  wc : c.c.WF
  ca : CanonMap p c.a
  cb : CanonMap p c.b
  cc : CanonMap p c.c

theorem _root_.Verif.Props.Algebra.Clean.good {c : C} (h : Clean p c) : Good p c := ⟨h.wa, h.wb, h.wc, h.ca, h.cb, h.cc⟩

theorem good_applySubstitution (hp : 0 < p) {c : C} (h : Good p c) (s : S) : Good p (c.applySubstitution s p) :=
  ⟨wf_rawSubstitution h.wa s _, wf_rawSubstitution h.wb s _, wf_rawSubstitution h.wc s _,
    canon_rawSubstitution hp h.ca s, canon_rawSubstitution hp h.cb s, canon_rawSubstitution hp h.cc s⟩

theorem clean_empty : Clean p (Constraint.empty : C) :=
  ⟨CMap.wf_nil, CMap.wf_nil, CMap.wf_nil, by intro e he; simp [Constraint.empty] at he,
    by intro e he; simp [Constraint.empty] at he, by intro e he; simp [Constraint.empty] at he,
    by intro e he; simp [Constraint.empty] at he, by intro e he; simp [Constraint.empty] at he,
    by intro e he; simp [Constraint.empty] at he⟩

theorem Clean.linClean {c : C} (h : Clean p c) (hl : c.isLinear = true) : LinClean p c := by
  have := Verif.Props.Algebra.isLinear_of c hl
  exact ⟨this.1, this.2, h.wc, h.cc, h.zc⟩

theorem LinClean.clean {c : C} (h : LinClean p c) : Clean p c := by
  have zn : NoZero ([] : CMap Nat) := fun e he => by simp at he
  have cn : CanonMap p ([] : CMap Nat) := fun e he => by simp at he
  obtain ⟨a, b, c⟩ := c
  have ha : a = [] := h.a
  have hb : b = [] := h.b
  subst ha; subst hb
  exact ⟨CMap.wf_nil, CMap.wf_nil, h.wf, cn, cn, h.canon, zn, zn, h.nz⟩

theorem mem_signalSet (c : C) (s : Nat) : s ∈ signalSet c ↔ s ≠ 0 ∧ c.Occurs s := by
  unfold signalSet Constraint.takeSignals Constraint.Occurs
  rw [List.mem_dedup, List.mem_filter]
  simp only [List.mem_append, decide_eq_true_eq, Nat.default_eq_zero, or_assoc]
  tauto

/-- A constraint depends only on the signals occurring in it. -/
theorem holds_congr {c : C} {ρ ρ' : Nat → ZMod p} (h : ∀ x, c.Occurs x → ρ x = ρ' x) : c.Holds ρ ↔ c.Holds ρ' := by
  unfold Constraint.Holds
  rw [ev_congr ρ ρ' c.a fun k hk => h k (Or.inl hk), ev_congr ρ ρ' c.b fun k hk => h k (Or.inr (Or.inl hk)),
    ev_congr ρ ρ' c.c fun k hk => h k (Or.inr (Or.inr hk))]

/-! ### Encoded right-hand sides -/

/-- The coefficient map of an affine expression. -/
def exprMap : AExpr Nat → CMap Nat
  | .number v => [(0, v)]
  | .signal k => [(k, 1)]
  | .linear m => m
  | _ => []

def Affine : AExpr Nat → Prop
  | .number _ => True
  | .signal _ => True
  | .linear _ => True
  | _ => False

theorem new_affine {s : Nat} {e : AExpr Nat} (ha : Affine e) (hs : s ∉ (exprMap e).keys) :
    Substitution.new s e = some ⟨s, exprMap e⟩ := by
  cases e with
  | number v => rfl
  | signal k => rfl
  | linear m =>
    have : CMap.contains m s = false := by
      rw [Bool.eq_false_iff, ne_eq, CMap.contains_iff]; exact hs
    simp only [Substitution.new, this, Bool.false_eq_true, if_false, exprMap]
  | quadratic a b c => exact absurd ha id
  | nonQuadratic => exact absurd ha id

theorem affine_mapIntoArith (m : CMap Nat) : Affine (mapIntoArith m) := by
  unfold mapIntoArith
  repeat' split
  all_goals trivial

theorem keys_mapIntoArith (m : CMap Nat) (x : Nat) (h : x ∈ (exprMap (mapIntoArith m)).keys) : x = 0 ∨ x ∈ m.keys := by
  unfold mapIntoArith at h
  repeat' split at h
  · rename_i k v hk
    simp [exprMap, CMap.keys] at h
    exact Or.inl h
  · rename_i k v h1 h2
    simp [exprMap, CMap.keys] at h
    exact Or.inr (by simp [CMap.keys, h])
  · simp only [exprMap, mem_keys_initConst] at h
    exact h
  · simp only [exprMap, mem_keys_initConst] at h
    exact h

theorem ev_mapIntoArith (ρ : Nat → ZMod p) (m : CMap Nat) : ev ρ (exprMap (mapIntoArith m)) = ev ρ m := by
  unfold mapIntoArith
  repeat' split
  · rename_i k v hk
    subst hk
    simp [exprMap, ev_cons, ev_nil]
  · rename_i k v h1 h2
    subst h2
    simp [exprMap, ev_cons, ev_nil]
  · simp only [exprMap, ev_initConst]
  · simp only [exprMap, ev_initConst]

/-- A usable encoding: affine right-hand sides, no constant key, no eliminated signal on a right-hand side. -/
structure EncOK (enc : SEnc) : Prop where
  sorted : BMap.Sorted enc
  affine : ∀ s e, BMap.get enc s = some e → Affine e
  nz : ∀ s e, BMap.get enc s = some e → s ≠ 0
  over : ∀ s e, BMap.get enc s = some e → ∀ x ∈ (exprMap e).keys, BMap.get enc x = none

/-- The assignment satisfies all encoded substitutions. -/
def EncHolds (ρ : Nat → ZMod p) (enc : SEnc) : Prop := ∀ s e, BMap.get enc s = some e → ρ s = ev ρ (exprMap e)

theorem EncOK.self {enc : SEnc} (h : EncOK enc) {s : Nat} {e : AExpr Nat} (hg : BMap.get enc s = some e) :
    s ∉ (exprMap e).keys := by
  intro hc
  have := h.over s e hg s hc
  rw [this] at hg; cases hg

theorem encOK_nil : EncOK [] := 
  ⟨BMap.sorted_nil, (by intro s e h; cases h), (by intro s e h; cases h), (by intro s e h; cases h)⟩

/-- Restricting an encoding. -/
theorem get_filter (enc : SEnc) (q : Nat → Bool) (s : Nat) :
    BMap.get (enc.filter fun e => q e.1) s = if q s then BMap.get enc s else none := by
  induction enc with
  | nil => simp [BMap.get]
  | cons e enc ih =>
    obtain ⟨k, v⟩ := e
    by_cases hk : q k
    · rw [List.filter_cons_of_pos (by simpa using hk)]
      simp only [BMap.get]
      by_cases hks : k = s
      · subst hks; simp [hk]
      · simp only [if_neg hks]; exact ih
    · rw [List.filter_cons_of_neg (by simpa using hk), ih]
      simp only [BMap.get]
      by_cases hks : k = s
      · subst hks; simp [hk]
      · simp only [if_neg hks]

theorem encOK_filter {enc : SEnc} (h : EncOK enc) (q : Nat → Bool) : EncOK (enc.filter fun e => q e.1) := by
  refine ⟨h.sorted.filter _, ?_, ?_, ?_⟩ <;> intro s e hg <;> rw [get_filter] at hg <;> split at hg
  · exact h.affine s e hg
  · cases hg
  · exact h.nz s e hg
  · cases hg
  · intro x hx
    rw [get_filter, h.over s e hg x hx]; simp
  · cases hg

/-! ### buildEncoded -/

theorem buildEncoded_aux (subs : List S) : ∀ (m : SEnc), BMap.Sorted m →
    BMap.Sorted (subs.foldl (fun m s => BMap.insert m s.decompose.1 s.decompose.2) m) ∧
    (∀ s e, BMap.get (subs.foldl (fun m s => BMap.insert m s.decompose.1 s.decompose.2) m) s = some e →
      BMap.get m s = some e ∨ ∃ t ∈ subs, t.frm = s ∧ e = mapIntoArith t.rhs) ∧
    (∀ s, (BMap.get m s).isSome ∨ (∃ t ∈ subs, t.frm = s) →
      (BMap.get (subs.foldl (fun m s => BMap.insert m s.decompose.1 s.decompose.2) m) s).isSome) := by
  induction subs with
  | nil => intro m hm; exact ⟨hm, fun s e h => Or.inl h, fun s h => by simpa using h⟩
  | cons t subs ih =>
    intro m hm
    obtain ⟨i1, i2, i3⟩ := ih (BMap.insert m t.decompose.1 t.decompose.2) (BMap.sorted_insert hm _ _)
    refine ⟨i1, fun s e h => ?_, fun s h => ?_⟩
    · rcases i2 s e h with h | ⟨u, hu, h1, h2⟩
      · rw [BMap.get_insert _ _ _ _ hm] at h
        split at h
        · rename_i hs
          injection h with h
          exact Or.inr ⟨t, by simp, hs.symm, h.symm⟩
        · exact Or.inl h
      · exact Or.inr ⟨u, by simp [hu], h1, h2⟩
    · apply i3
      rw [BMap.get_insert _ _ _ _ hm]
      rcases h with h | ⟨u, hu, h⟩
      · left; split
        · rfl
        · exact h
      · rcases List.mem_cons.1 hu with rfl | hu
        · left; rw [if_pos (show s = u.decompose.1 from h.symm)]; rfl
        · exact Or.inr ⟨u, hu, h⟩

theorem buildEncoded_sorted (subs : List S) : BMap.Sorted (buildEncoded subs) := (buildEncoded_aux subs [] BMap.sorted_nil).1

theorem buildEncoded_get {subs : List S} {s : Nat} {e : AExpr Nat} (h : BMap.get (buildEncoded subs) s = some e) :
    ∃ t ∈ subs, t.frm = s ∧ e = mapIntoArith t.rhs := by
  rcases (buildEncoded_aux subs [] BMap.sorted_nil).2.1 s e h with h | h
  · cases h
  · exact h

theorem buildEncoded_isSome {subs : List S} {t : S} (h : t ∈ subs) : (BMap.get (buildEncoded subs) t.frm).isSome :=
  (buildEncoded_aux subs [] BMap.sorted_nil).2.2 _ (Or.inr ⟨t, h, rfl⟩)

theorem buildEncoded_isSome_iff {subs : List S} {x : Nat} :
    (BMap.get (buildEncoded subs) x).isSome ↔ ∃ t ∈ subs, t.frm = x := by
  constructor
  · intro h
    obtain ⟨e, he⟩ := Option.isSome_iff_exists.1 h
    obtain ⟨t, ht, h1, _⟩ := buildEncoded_get he
    exact ⟨t, ht, h1⟩
  · rintro ⟨t, ht, rfl⟩; exact buildEncoded_isSome ht

theorem buildEncoded_of_nodup {subs : List S} (hn : (subs.map fun s => s.frm).Nodup) {t : S} (h : t ∈ subs) :
    BMap.get (buildEncoded subs) t.frm = some (mapIntoArith t.rhs) := by
  obtain ⟨e, he⟩ := Option.isSome_iff_exists.1 (buildEncoded_isSome h)
  obtain ⟨u, hu, h1, h2⟩ := buildEncoded_get he
  have : u = t := by
    have := List.inj_on_of_nodup_map hn
    exact this hu h h1
  subst this
  rw [he, h2]

theorem encHolds_buildEncoded {subs : List S} {ρ : Nat → ZMod p} (h : ∀ s ∈ subs, s.Holds ρ) :
    EncHolds ρ (buildEncoded subs) := by
  intro s e hg
  obtain ⟨t, ht, rfl, rfl⟩ := buildEncoded_get hg
  rw [ev_mapIntoArith]
  exact h t ht

theorem encHolds_filter {enc : SEnc} {ρ : Nat → ZMod p} (h : EncHolds ρ enc) (q : Nat → Bool) :
    EncHolds ρ (enc.filter fun e => q e.1) := by
  intro s e hg
  rw [get_filter] at hg
  split at hg
  · exact h s e hg
  · cases hg

/-- An encoding built from substitutions that do not overlap. -/
theorem encOK_buildEncoded {subs : List S} (h0 : ∀ s ∈ subs, s.frm ≠ 0)
    (hd : ∀ s ∈ subs, ∀ t ∈ subs, s.frm ∉ t.rhs.keys) : EncOK (buildEncoded subs) := by
  refine ⟨buildEncoded_sorted subs, ?_, ?_, ?_⟩
  · intro s e hg
    obtain ⟨t, _, _, rfl⟩ := buildEncoded_get hg
    exact affine_mapIntoArith _
  · intro s e hg
    obtain ⟨t, ht, rfl, _⟩ := buildEncoded_get hg
    exact h0 t ht
  · intro s e hg x hx
    obtain ⟨t, ht, rfl, rfl⟩ := buildEncoded_get hg
    by_contra hne
    have : (BMap.get (buildEncoded subs) x).isSome := Option.isSome_iff_ne_none.2 hne
    obtain ⟨u, hu, rfl⟩ := buildEncoded_isSome_iff.1 this
    rcases keys_mapIntoArith _ _ hx with h | h
    · exact h0 u hu h
    · exact hd u hu t ht h

/-! ### fastConstraint -/

theorem fastFold (hp : 0 < p) {enc : SEnc} (he : EncOK enc) (l : List Nat) : ∀ (c : C) (b : Bool), Good p c →
    ∃ c' b', l.foldlM (fastStep enc p) (c, b) = .ok (c', b') ∧ Good p c' ∧
      (b' = b ∧ c' = c ∨ b' = true) ∧
      (∀ ρ : Nat → ZMod p, EncHolds ρ enc → (c'.Holds ρ ↔ c.Holds ρ)) ∧
      (∀ x, c'.Occurs x → x = 0 ∨ (c.Occurs x ∧ (x ∈ l → BMap.get enc x = none)) ∨
        ∃ s ∈ l, ∃ e, BMap.get enc s = some e ∧ x ∈ (exprMap e).keys) := by
  induction l with
  | nil =>
    intro c b hg
    exact ⟨c, b, rfl, hg, Or.inl ⟨rfl, rfl⟩, fun _ _ => Iff.rfl, fun x hx => Or.inr (Or.inl ⟨hx, by simp⟩)⟩
  | cons s l ih =>
    intro c b hg
    rw [List.foldlM_cons]
    cases hget : BMap.get enc s with
    | none =>
      have e1 : fastStep enc p (c, b) s = .ok (c, b) := by simp [fastStep, hget]
      rw [e1, ok_bind]
      obtain ⟨c', b', f1, f2, f3, f4, f5⟩ := ih c b hg
      refine ⟨c', b', f1, f2, f3, f4, fun x hx => ?_⟩
      rcases f5 x hx with h | ⟨h1, h2⟩ | ⟨t, ht, e, h1, h2⟩
      · exact Or.inl h
      · refine Or.inr (Or.inl ⟨h1, fun hm => ?_⟩)
        rcases List.mem_cons.1 hm with rfl | hm
        · exact hget
        · exact h2 hm
      · exact Or.inr (Or.inr ⟨t, by simp [ht], e, h1, h2⟩)
    | some e =>
      have hself := he.self hget
      have hnz := he.nz s e hget
      have e1 : fastStep enc p (c, b) s = .ok (c.applySubstitution ⟨s, exprMap e⟩ p, true) := by
        simp [fastStep, hget, new_affine (he.affine s e hget) hself]
      rw [e1, ok_bind]
      obtain ⟨c', b', f1, f2, f3, f4, f5⟩ := ih _ true (good_applySubstitution hp hg ⟨s, exprMap e⟩)
      refine ⟨c', b', f1, f2, Or.inr ?_, fun ρ hρ => ?_, fun x hx => ?_⟩
      · rcases f3 with h | h
        · exact h.1
        · exact h
      · rw [f4 ρ hρ]
        exact (C14_constraint hp c hg.wa hg.wb hg.wc ⟨s, exprMap e⟩ hnz ρ).2 (hρ s e hget)
      · obtain ⟨g1, g2⟩ := C14_removed c ⟨s, exprMap e⟩ (p : Int) hnz hself
        rcases f5 x hx with h | ⟨h1, h2⟩ | ⟨t, ht, e', h1, h2⟩
        · exact Or.inl h
        · rcases g2 x h1 with h | h | h
          · exact Or.inl h
          · refine Or.inr (Or.inl ⟨h, fun hm => ?_⟩)
            rcases List.mem_cons.1 hm with rfl | hm
            · exact absurd h1 g1
            · exact h2 hm
          · exact Or.inr (Or.inr ⟨s, by simp, e, hget, h⟩)
        · exact Or.inr (Or.inr ⟨t, by simp [ht], e', h1, h2⟩)

/-- What a fast substitution delivers. -/
structure FastOK (p : Nat) (enc : SEnc) (c c' : C) : Prop where
  good : Good p c'
  equiv : ∀ ρ : Nat → ZMod p, ρ 0 = 1 → EncHolds ρ enc → (c'.Holds ρ ↔ c.Holds ρ)
  occurs : ∀ x, c'.Occurs x → x = 0 ∨ (c.Occurs x ∧ BMap.get enc x = none) ∨
    ∃ s e, c.Occurs s ∧ BMap.get enc s = some e ∧ x ∈ (exprMap e).keys

theorem FastOK.gone {enc : SEnc} (he : EncOK enc) {c c' : C} (h : FastOK p enc c c') {x : Nat} (hx : x ≠ 0)
    (ho : c'.Occurs x) : BMap.get enc x = none := by
  rcases h.occurs x ho with h | h | ⟨s, e, _, h1, h2⟩
  · exact absurd h hx
  · exact h.2
  · exact he.over s e h1 x h2

theorem fastConstraint_spec (hp : 0 < p) {enc : SEnc} (he : EncOK enc) (ord : List Nat → List Nat)
    (hord : ∀ l, (ord l).Perm l) (c : C) (hg : Good p c) :
    ∃ c' b, fastConstraint ord enc p c = .ok (c', b) ∧ FastOK p enc c c' ∧ (b = false → c' = c) := by
  obtain ⟨c', b, f1, f2, f3, f4, f5⟩ := fastFold hp he (ord (signalSet c)) c false hg
  refine ⟨c', b, f1, ⟨f2, fun ρ _ h => f4 ρ h, fun x hx => ?_⟩, fun hb => ?_⟩
  · rcases f5 x hx with h | ⟨h1, h2⟩ | ⟨s, hs, e, h1, h2⟩
    · exact Or.inl h
    · by_cases hx0 : x = 0
      · exact Or.inl hx0
      · exact Or.inr (Or.inl ⟨h1, h2 ((hord _).mem_iff.2 ((mem_signalSet c x).2 ⟨hx0, h1⟩))⟩)
    · exact Or.inr (Or.inr ⟨s, e, ((mem_signalSet c s).1 ((hord _).mem_iff.1 hs)).2, h1, h2⟩)
  · rcases f3 with h | h
    · exact h.2
    · rw [hb] at h; cases h

/-! ### Linear constraints stay linear -/

/-- A map with at most a zero constant. -/
def ZeroOnly (m : CMap Nat) : Prop := ∀ e ∈ m, e = (0, 0)

theorem zeroOnly_raw {m : CMap Nat} (h : ZeroOnly m) (s : S) (hs : s.frm ≠ 0) (f : Int) :
    ZeroOnly (rawSubstitution m s f) := by
  have hi : ZeroOnly (initConst m) := by
    unfold initConst
    split
    · exact h
    · intro e he
      rcases CMap.mem_insert he with h1 | h1
      · exact h1
      · exact h e h1
  unfold rawSubstitution
  simp only []
  have : (initConst m).get s.frm = none := by
    rw [CMap.get_eq_none_iff]
    intro hm
    obtain ⟨e, he, h1⟩ := List.mem_map.1 hm
    have := hi e he
    rw [this] at h1
    exact hs h1.symm
  rw [this]
  exact hi

theorem zeroOnly_removeZeros {m : CMap Nat} (h : ZeroOnly m) : removeZeros m = [] := by
  rw [List.eq_nil_iff_forall_not_mem]
  intro e he
  obtain ⟨h1, h2⟩ := mem_removeZeros.1 he
  rw [h e h1] at h2
  exact h2 rfl

theorem fastFold_zero {enc : SEnc} (he : EncOK enc) (l : List Nat) (f : Int) : ∀ (c : C) (b : Bool) (c' : C) (b' : Bool),
    ZeroOnly c.a → ZeroOnly c.b → l.foldlM (fastStep enc f) (c, b) = .ok (c', b') → ZeroOnly c'.a ∧ ZeroOnly c'.b := by
  induction l with
  | nil =>
    intro c b c' b' ha hb h
    injection h with h
    injection h with h1 h2
    subst h1; exact ⟨ha, hb⟩
  | cons s l ih =>
    intro c b c' b' ha hb h
    rw [List.foldlM_cons] at h
    cases hget : BMap.get enc s with
    | none =>
      have e1 : fastStep enc f (c, b) s = .ok (c, b) := by simp [fastStep, hget]
      rw [e1, ok_bind] at h
      exact ih _ _ _ _ ha hb h
    | some e =>
      have e1 : fastStep enc f (c, b) s = .ok (c.applySubstitution ⟨s, exprMap e⟩ f, true) := by
        simp [fastStep, hget, new_affine (he.affine s e hget) (he.self hget)]
      rw [e1, ok_bind] at h
      exact ih _ _ _ _ (zeroOnly_raw ha _ (he.nz s e hget) f) (zeroOnly_raw hb _ (he.nz s e hget) f) h

theorem fix_linear {c c' : C} (f : Int) (ha : ZeroOnly c.a) (h : c.fix f = .ok c') : c'.a = [] ∧ c'.b = [] := by
  unfold Constraint.fix at h
  simp only [zeroOnly_removeZeros ha, List.isEmpty_nil, Bool.true_or, if_true] at h
  injection h with h
  rw [← h]; exact ⟨rfl, rfl⟩

/-- Substituting and cleaning one linear constraint. -/
theorem substitute_linear (hp : 0 < p) {enc : SEnc} (he : EncOK enc) (ord : List Nat → List Nat)
    (hord : ∀ l, (ord l).Perm l) (c : C) (hc : LinClean p c) :
    ∃ c' b c'', fastConstraint ord enc p c = .ok (c', b) ∧ fixIf b c' p = .ok c'' ∧
      LinClean p c'' ∧ FastOK p enc c c'' := by
  obtain ⟨c', b, f1, f2, f3⟩ := fastConstraint_spec hp he ord hord c (LinClean.clean hc).good
  cases b with
  | false =>
    have := f3 rfl
    subst this
    exact ⟨c', false, c', f1, rfl, hc, f2⟩
  | true =>
    obtain ⟨c'', g1, g2, g3, g4, _⟩ := C15_fix hp c' f2.good.wa f2.good.wb f2.good.wc f2.good.ca f2.good.cb f2.good.cc
    have hz := fastFold_zero he _ p c false c' true (by rw [hc.a]; intro e h; simp at h)
      (by rw [hc.b]; intro e h; simp at h) f1
    have hl := fix_linear (p : Int) hz.1 g1
    refine ⟨c', true, c'', f1, g1, ⟨hl.1, hl.2, g2.wc, g2.cc, g2.zc⟩, g2.good, ?_, ?_⟩
    · intro ρ hρ hE
      rw [g3 ρ hρ]; exact f2.equiv ρ hρ hE
    · intro x hx
      rcases g4 x hx with h | h
      · exact Or.inl h
      · exact f2.occurs x h

theorem substituteAll_linear (hp : 0 < p) {enc : SEnc} (he : EncOK enc) (ord : SetOrder) (hord : ord.Valid)
    (cs : List C) : ∀ (n : Nat), (∀ c ∈ cs, LinClean p c) →
    ∃ cs', substituteAll ord enc p n cs = .ok cs' ∧
      List.Forall₂ (fun c c' => LinClean p c' ∧ FastOK p enc c c') cs cs' := by
  induction cs with
  | nil => intro n _; exact ⟨[], rfl, List.Forall₂.nil⟩
  | cons c cs ih =>
    intro n hcs
    obtain ⟨c', b, c'', f1, f2, f3, f4⟩ := substitute_linear hp he (ord n) (hord n) c (hcs c (by simp))
    obtain ⟨cs', g1, g2⟩ := ih (n + 1) (fun c hc => hcs c (by simp [hc]))
    refine ⟨c'' :: cs', ?_, List.Forall₂.cons ⟨f3, f4⟩ g2⟩
    unfold substituteAll
    rw [f1, ok_bind]
    simp only [f2, ok_bind, g1]

/-- Satisfaction of a whole list after substitution. -/
theorem forall₂_holds {R : C → C → Prop} {cs cs' : List C} {ρ : Nat → ZMod p} (h : List.Forall₂ R cs cs')
    (hR : ∀ c c', R c c' → (c'.Holds ρ ↔ c.Holds ρ)) : (∀ c ∈ cs', c.Holds ρ) ↔ ∀ c ∈ cs, c.Holds ρ := by
  induction h with
  | nil => simp
  | cons h1 _ ih => simp only [List.forall_mem_cons]; rw [hR _ _ h1, ih]

end Verif.Simplification
