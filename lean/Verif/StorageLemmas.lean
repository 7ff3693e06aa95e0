import Verif.Storage
import Verif.BytesLemmas
import Verif.Props.Algebra

/-! Lemmas about the constant tracker and the constraint storage. -/

set_option linter.unusedSectionVars false
set_option linter.unusedSimpArgs false

namespace Verif.Storage
open Verif.ModArith (Res Fail)
open Verif.Algebra Verif.Linear Verif.Bytes
open Verif.Props.Algebra (ok_bind)

variable {α : Type} [DecidableEq α]

/-- Invariant: `lookup` inverts `constants`. -/
def Tracker.OK (t : Tracker α) : Prop := ∀ c id, t.getId c = some id ↔ t.constants[id]? = some c

/-- `t'` extends `t`. -/
def Tracker.Le (t t' : Tracker α) : Prop := ∃ l, t'.constants = t.constants ++ l

theorem Tracker.Le.refl (t : Tracker α) : t.Le t := ⟨[], by simp⟩

theorem Tracker.Le.trans {t t' t'' : Tracker α} (h : t.Le t') (h' : t'.Le t'') : t.Le t'' := by
  obtain ⟨l, h⟩ := h; obtain ⟨l', h'⟩ := h'
  exact ⟨l ++ l', by rw [h', h, List.append_assoc]⟩

theorem getConstant_eq (t : Tracker α) (id : Nat) : t.getConstant id = t.constants[id]? := by
  unfold Tracker.getConstant
  split
  · rfl
  · rename_i h; rw [List.getElem?_eq_none (by omega)]

theorem Tracker.Le.get {t t' : Tracker α} (h : t.Le t') {id : Nat} {c : α} (hg : t.getConstant id = some c) :
    t'.getConstant id = some c := by
  obtain ⟨l, h⟩ := h
  rw [getConstant_eq] at hg ⊢
  rw [h, List.getElem?_append_left]
  · exact hg
  · exact (List.getElem?_eq_some_iff.1 hg).1

theorem Tracker.new_ok : (Tracker.new : Tracker α).OK := by
  intro c id; simp [Tracker.new, Tracker.getId]

theorem Tracker.insert_spec {t : Tracker α} (h : t.OK) (c : α) :
    (t.insert c).2.OK ∧ t.Le (t.insert c).2 ∧ (t.insert c).2.getConstant (t.insert c).1 = some c := by
  unfold Tracker.insert
  cases hg : t.getId c with
  | some id =>
    refine ⟨h, Tracker.Le.refl t, ?_⟩
    rw [getConstant_eq]; exact (h c id).1 hg
  | none =>
    refine ⟨?_, ⟨[c], rfl⟩, ?_⟩
    · intro c' id
      have hnot : ∀ id, t.constants[id]? ≠ some c := fun id hid => by rw [(h c id).2 hid] at hg; cases hg
      have hold := h c' id
      unfold Tracker.getId at hold ⊢
      simp only [List.find?_cons]
      by_cases hc : c = c'
      · subst hc
        simp only [decide_true, Option.map_some, Option.some.injEq]
        constructor
        · rintro rfl; simp
        · intro hid
          rcases Nat.lt_trichotomy id t.constants.length with hl | hl | hl
          · rw [List.getElem?_append_left hl] at hid; exact absurd hid (hnot id)
          · exact hl.symm
          · rw [List.getElem?_append_right (by omega), List.getElem?_eq_none (by simp; omega)] at hid; cases hid
      · simp only [decide_eq_false hc]
        rw [hold]
        rcases Nat.lt_trichotomy id t.constants.length with hl | hl | hl
        · rw [List.getElem?_append_left hl]
        · subst hl; simp [hc]
        · rw [List.getElem?_eq_none (show (t.constants ++ [c]).length ≤ id by simp; omega), List.getElem?_eq_none (by omega)]
    · rw [getConstant_eq]; simp

theorem insertAll_spec (cs : List α) : ∀ t : Tracker α, t.OK →
    (Tracker.insertAll cs t).2.OK ∧ t.Le (Tracker.insertAll cs t).2 ∧ (Tracker.insertAll cs t).1.length = cs.length ∧
    List.Forall₂ (fun id c => (Tracker.insertAll cs t).2.getConstant id = some c) (Tracker.insertAll cs t).1 cs := by
  induction cs with
  | nil => intro t h; exact ⟨h, Tracker.Le.refl t, rfl, List.Forall₂.nil⟩
  | cons c cs ih =>
    intro t h
    obtain ⟨h1, h2, h3⟩ := Tracker.insert_spec h c
    obtain ⟨i1, i2, i3, i4⟩ := ih _ h1
    refine ⟨i1, h2.trans i2, by simp [Tracker.insertAll, i3], ?_⟩
    exact List.Forall₂.cons (i2.get h3) i4

/-! ## Storage -/

/-- The compressed expression stands for the map. -/
def Codes (t : FTracker) (e : CExpr) (m : CMap Nat) : Prop :=
  List.Forall₂ (fun p q => p.2 = q.1 ∧ t.getConstant p.1 = some (toSignedBytesLE q.2)) e m

theorem Codes.mono {t t' : FTracker} (h : t.Le t') {e : CExpr} {m : CMap Nat} (hc : Codes t e m) : Codes t' e m :=
  hc.imp fun _ _ ⟨a, b⟩ => ⟨a, h.get b⟩

theorem codeExpression_spec (m : CMap Nat) : ∀ t : FTracker, t.OK →
    (codeExpression m t).2.OK ∧ t.Le (codeExpression m t).2 ∧ Codes (codeExpression m t).2 (codeExpression m t).1 m := by
  induction m with
  | nil => intro t h; exact ⟨h, Tracker.Le.refl t, List.Forall₂.nil⟩
  | cons e m ih =>
    obtain ⟨var, coeff⟩ := e
    intro t h
    obtain ⟨h1, h2, h3⟩ := Tracker.insert_spec h (toSignedBytesLE coeff)
    obtain ⟨i1, i2, i3⟩ := ih _ h1
    exact ⟨i1, h2.trans i2, List.Forall₂.cons ⟨rfl, i2.get h3⟩ i3⟩

theorem decodeExpr_spec {t : FTracker} {e : CExpr} {m : CMap Nat} (hc : Codes t e m) (hw : m.WF) : decodeExpr e t = .ok m := by
  have : ∀ (e : CExpr) (m : CMap Nat), Codes t e m → ∀ acc : CMap Nat, CMap.WF (acc ++ m) →
      e.foldlM (fun m p => match t.getConstant p.1 with
        | none => (.error .panic : Res (CMap Nat))
        | some raw => .ok (CMap.insert m p.2 (fromSignedBytesLE raw))) acc = .ok (acc ++ m) := by
    intro e m hc
    induction hc with
    | nil => intro acc _; simp; rfl
    | cons h _ ih =>
      rename_i p q e m _
      intro acc hw
      obtain ⟨h1, h2⟩ := h
      rw [List.foldlM_cons]
      simp only [h2, from_toSignedBytesLE, ok_bind]
      have hnot : p.2 ∉ CMap.keys acc := by
        unfold CMap.WF CMap.keys at hw
        rw [List.map_append, List.map_cons, List.nodup_append] at hw
        intro hin
        exact hw.2.2 _ hin _ (by simp) h1
      rw [insert_of_not_mem _ hnot]
      have : acc ++ [(p.2, q.2)] ++ m = acc ++ q :: m := by rw [h1]; simp
      rw [← this] at hw
      rw [← this]
      exact ih _ hw
  exact this e m hc [] hw

/-- All maps of a constraint have distinct keys. -/
def WFC (c : C) : Prop := c.a.WF ∧ c.b.WF ∧ c.c.WF

/-- The compressed constraint stands for the constraint. -/
def CodesC (t : FTracker) (k : CConstraint) (c : C) : Prop := Codes t k.1 c.a ∧ Codes t k.2.1 c.b ∧ Codes t k.2.2 c.c ∧ WFC c

theorem CodesC.mono {t t' : FTracker} (h : t.Le t') {k : CConstraint} {c : C} (hc : CodesC t k c) : CodesC t' k c :=
  ⟨hc.1.mono h, hc.2.1.mono h, hc.2.2.1.mono h, hc.2.2.2⟩

theorem codeConstraint_spec (c : C) (hw : WFC c) (t : FTracker) (h : t.OK) :
    (codeConstraint c t).2.OK ∧ t.Le (codeConstraint c t).2 ∧ CodesC (codeConstraint c t).2 (codeConstraint c t).1 c := by
  obtain ⟨a1, a2, a3⟩ := codeExpression_spec c.a t h
  obtain ⟨b1, b2, b3⟩ := codeExpression_spec c.b _ a1
  obtain ⟨c1, c2, c3⟩ := codeExpression_spec c.c _ b1
  exact ⟨c1, a2.trans (b2.trans c2), a3.mono (b2.trans c2), b3.mono c2, c3, hw⟩

theorem decodeConstraint_spec {t : FTracker} {k : CConstraint} {c : C} (h : CodesC t k c) : decodeConstraint k t = .ok c := by
  unfold decodeConstraint
  rw [decodeExpr_spec h.1 h.2.2.2.1, ok_bind, decodeExpr_spec h.2.1 h.2.2.2.2.1, ok_bind, decodeExpr_spec h.2.2.1 h.2.2.2.2.2, ok_bind]

/-- The store stands for the list. -/
def Reps (s : Store) (l : List C) : Prop := s.tracker.OK ∧ List.Forall₂ (CodesC s.tracker) s.constraints l

theorem reps_new : Reps Store.new [] := ⟨Tracker.new_ok, List.Forall₂.nil⟩

theorem forall₂_getElem? {β γ : Type} {R : β → γ → Prop} {l : List β} {l' : List γ} (h : List.Forall₂ R l l') (i : Nat) :
    (l[i]? = none ∧ l'[i]? = none) ∨ ∃ a b, l[i]? = some a ∧ l'[i]? = some b ∧ R a b := by
  induction h generalizing i with
  | nil => left; simp
  | cons h _ ih =>
    cases i with
    | zero => right; exact ⟨_, _, rfl, rfl, h⟩
    | succ i => simpa using ih i

theorem forall₂_set {β γ : Type} {R : β → γ → Prop} {l : List β} {l' : List γ} (h : List.Forall₂ R l l') {a : β} {b : γ} (hab : R a b)
    (i : Nat) : List.Forall₂ R (l.set i a) (l'.set i b) := by
  induction h generalizing i with
  | nil => exact List.Forall₂.nil
  | cons h hl ih =>
    cases i with
    | zero => exact List.Forall₂.cons hab hl
    | succ i => exact List.Forall₂.cons h (ih i)

theorem Reps.read {s : Store} {l : List C} (h : Reps s l) (id : Nat) : s.read id = .ok l[id]? := by
  unfold Store.read
  rcases forall₂_getElem? h.2 id with ⟨a, b⟩ | ⟨k, c, a, b, r⟩
  · rw [a, b]
  · rw [a, b]; simp only [decodeConstraint_spec r, ok_bind]

theorem Reps.add {s : Store} {l : List C} (h : Reps s l) (c : C) (hw : WFC c) : (s.add c).1 = l.length ∧ Reps (s.add c).2 (l ++ [c]) := by
  obtain ⟨h1, h2, h3⟩ := codeConstraint_spec c hw s.tracker h.1
  refine ⟨h.2.length_eq, h1, ?_⟩
  refine List.rel_append (h.2.imp fun _ _ hr => hr.mono h2) (List.Forall₂.cons h3 List.Forall₂.nil)

theorem Reps.replace {s : Store} {l : List C} (h : Reps s l) (id : Nat) (c : C) (hw : WFC c) : Reps (s.replace id c) (l.set id c) := by
  unfold Store.replace
  split
  · obtain ⟨h1, h2, h3⟩ := codeConstraint_spec c hw s.tracker h.1
    exact ⟨h1, forall₂_set (h.2.imp fun _ _ hr => hr.mono h2) h3 id⟩
  · rename_i hlt
    rw [List.set_eq_of_length_le (by rw [← h.2.length_eq]; omega)]
    exact h

theorem extractLoop_spec (f : C → Bool) (t : FTracker) {ks : List CConstraint} {l : List C} (h : List.Forall₂ (CodesC t) ks l) :
    ∃ kept, extractLoop f t ks = .ok (l.filter f, kept) ∧ List.Forall₂ (CodesC t) kept (l.filter fun c => !f c) := by
  induction h with
  | nil => exact ⟨[], rfl, List.Forall₂.nil⟩
  | cons h _ ih =>
    rename_i k c ks l _
    obtain ⟨kept, i1, i2⟩ := ih
    unfold extractLoop
    rw [decodeConstraint_spec h, ok_bind, i1, ok_bind]
    cases hf : f c with
    | true => exact ⟨kept, by simp [hf], by simpa [hf] using i2⟩
    | false => exact ⟨k :: kept, by simp [hf], by simpa [hf] using ⟨h, i2⟩⟩

theorem Reps.extract {s : Store} {l : List C} (h : Reps s l) (f : C → Bool) :
    ∃ s', s.extractWith f = .ok (l.filter f, s') ∧ Reps s' (l.filter fun c => !f c) := by
  obtain ⟨kept, h1, h2⟩ := extractLoop_spec f s.tracker h.2
  unfold Store.extractWith
  exact ⟨⟨s.tracker, kept⟩, by rw [h1, ok_bind], h.1, h2⟩

end Verif.Storage
