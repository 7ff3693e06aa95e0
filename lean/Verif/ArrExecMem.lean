import Verif.ArrExec
import Verif.MemoryLemmas

/-!
The functions on slices act on positions only: related arrays give related results (for any relation
between the cells), and cells not written stay as they are.
-/

set_option linter.unusedSimpArgs false
set_option linter.unusedVariables false

namespace Verif.ArrExec

open Verif.ModArith Verif.Memory

variable {α β : Type}

/-- Slices of the same shape with related cells. -/
def RS (R : α → β → Prop) (s : Slice α) (t : Slice β) : Prop :=
  s.route = t.route ∧ List.Forall₂ R s.values t.values

variable {R : α → β → Prop}

theorem forall₂_getElem? {vs : List α} {ws : List β} (h : List.Forall₂ R vs ws) (i : Nat) :
    (vs[i]? = none ∧ ws[i]? = none) ∨ ∃ a b, vs[i]? = some a ∧ ws[i]? = some b ∧ R a b := by
  induction h generalizing i with
  | nil => exact .inl ⟨by simp, by simp⟩
  | @cons a b vs ws hab _ ih =>
    cases i with
    | zero => exact .inr ⟨a, b, rfl, rfl, hab⟩
    | succ i => simpa using ih i

theorem copyCells_rel {vs : List α} {ws : List β} (h : List.Forall₂ R vs ws) (n start : Nat) :
    (∃ e, copyCells vs start n = .error e ∧ copyCells ws start n = .error e) ∨
      ∃ a b, copyCells vs start n = .ok a ∧ copyCells ws start n = .ok b ∧ List.Forall₂ R a b := by
  induction n generalizing start with
  | zero => exact .inr ⟨[], [], rfl, rfl, .nil⟩
  | succ n ih =>
    simp only [copyCells]
    rcases forall₂_getElem? h start with ⟨h1, h2⟩ | ⟨a, b, h1, h2, h3⟩
    · rw [h1, h2]; exact .inl ⟨_, rfl, rfl⟩
    · rw [h1, h2]
      rcases ih (start + 1) with ⟨e, g1, g2⟩ | ⟨x, y, g1, g2, g3⟩
      · simp only [g1, g2]; exact .inl ⟨e, rfl, rfl⟩
      · simp only [g1, g2]; exact .inr ⟨_, _, rfl, rfl, .cons h3 g3⟩

theorem getInitialCell_rel {s : Slice α} {t : Slice β} (h : RS R s t) (is : List Nat) :
    getInitialCell s is = getInitialCell t is := by
  unfold getInitialCell
  rw [h.1, h.2.length_eq]

/-- Reading. -/
theorem accessValues_rel {s : Slice α} {t : Slice β} (h : RS R s t) (is : List Nat) :
    (∃ e, accessValues s is = .error e ∧ accessValues t is = .error e) ∨
    (∃ e, accessValues s is = .ok (.error e) ∧ accessValues t is = .ok (.error e)) ∨
      ∃ a b, accessValues s is = .ok (.ok a) ∧ accessValues t is = .ok (.ok b) ∧ RS R a b := by
  unfold accessValues
  by_cases hi : is.isEmpty = true
  · rw [if_pos hi, if_pos hi]; exact .inr (.inr ⟨s, t, rfl, rfl, h⟩)
  · rw [if_neg hi, if_neg hi, getInitialCell_rel h is]
    have hn : newRoute s is = newRoute t is := by unfold newRoute; rw [h.1]
    rw [hn]
    cases newRoute t is with
    | error e => exact .inr (.inl ⟨e, rfl, rfl⟩)
    | ok x =>
      obtain ⟨size, n⟩ := x
      cases getInitialCell t is with
      | error e => exact .inr (.inl ⟨e, rfl, rfl⟩)
      | ok cell =>
        rcases copyCells_rel h.2 n cell with ⟨e, g1, g2⟩ | ⟨a, b, g1, g2, g3⟩
        · simp only [g1, g2]; exact .inl ⟨e, rfl, rfl⟩
        · simp only [g1, g2]; exact .inr (.inr ⟨_, _, rfl, rfl, rfl, g3⟩)

theorem forall₂_set {vs : List α} {ws : List β} (h : List.Forall₂ R vs ws) (i : Nat) {a : α} {b : β}
    (hab : R a b) : List.Forall₂ R (vs.set i a) (ws.set i b) := by
  induction h generalizing i with
  | nil => exact .nil
  | cons h1 h2 ih =>
    cases i with
    | zero => exact .cons hab h2
    | succ i => exact .cons h1 (ih i)

theorem writeCells_rel {ns : List α} {ms : List β} (hn : List.Forall₂ R ns ms) {vs : List α}
    {ws : List β} (h : List.Forall₂ R vs ws) (cell : Nat) :
    (∃ e, writeCells vs cell ns = .error e ∧ writeCells ws cell ms = .error e) ∨
      ∃ a b, writeCells vs cell ns = .ok a ∧ writeCells ws cell ms = .ok b ∧ List.Forall₂ R a b := by
  induction hn generalizing vs ws cell with
  | nil => exact .inr ⟨_, _, rfl, rfl, h⟩
  | cons h1 _ ih =>
    simp only [writeCells, h.length_eq]
    by_cases hc : cell < ws.length
    · rw [if_pos hc, if_pos hc]; exact ih (forall₂_set h cell h1) _
    · rw [if_neg hc, if_neg hc]; exact .inl ⟨_, rfl, rfl⟩

/-- Related outcomes of writes. -/
def RW (R : α → β → Prop) (x : Res (Slice α × Except MemErr Unit)) (y : Res (Slice β × Except MemErr Unit)) :
    Prop :=
  (∃ e, x = .error e ∧ y = .error e) ∨ ∃ a b r, x = .ok (a, r) ∧ y = .ok (b, r) ∧ RS R a b

theorem weakLoop_rel {rec : Slice α → List Nat → Slice α → Res (Slice α × Except MemErr Unit)}
    {rec' : Slice β → List Nat → Slice β → Res (Slice β × Except MemErr Unit)}
    (hrec : ∀ s t is n m, RS R s t → RS R n m → RW R (rec s is n) (rec' t is m))
    {is : List Nat} {n : Slice α} {m : Slice β} (hn : RS R n m) (final : MemErr) (ks : List Nat)
    {s : Slice α} {t : Slice β} (h : RS R s t) :
    RW R (weakLoop rec is n final ks s) (weakLoop rec' is m final ks t) := by
  induction ks generalizing s t with
  | nil => exact .inr ⟨_, _, _, rfl, rfl, h⟩
  | cons k ks ih =>
    simp only [weakLoop]
    rcases accessValues_rel hn [k] with ⟨e, g1, g2⟩ | ⟨e, g1, g2⟩ | ⟨a, b, g1, g2, g3⟩
    · rw [g1, g2]; exact .inl ⟨_, rfl, rfl⟩
    · rw [g1, g2]; exact .inr ⟨_, _, _, rfl, rfl, h⟩
    · rw [g1, g2]
      rcases hrec s t (is ++ [k]) a b h g3 with ⟨e, f1, f2⟩ | ⟨x, y, r, f1, f2, f3⟩
      · simp only [f1, f2]; exact .inl ⟨_, rfl, rfl⟩
      · simp only [f1, f2]; exact ih f3

theorem checkCorrectDims_rel {s : Slice α} {t : Slice β} {n : Slice α} {m : Slice β} (h : RS R s t)
    (hn : RS R n m) (is : List Nat) (strict : Bool) :
    checkCorrectDims s is n strict = checkCorrectDims t is m strict := by
  unfold checkCorrectDims
  rw [h.1, hn.1]

/-- Writing. -/
theorem insertRec_rel (strict : Bool) (fuel : Nat) : ∀ (s : Slice α) (t : Slice β) (is : List Nat)
    (n : Slice α) (m : Slice β), RS R s t → RS R n m →
    RW R (insertRec strict fuel s is n) (insertRec strict fuel t is m) := by
  induction fuel with
  | zero => intro s t is n m _ _; exact .inl ⟨_, rfl, rfl⟩
  | succ fuel ih =>
    intro s t is n m h hn
    simp only [insertRec]
    rw [checkCorrectDims_rel h hn is strict, getInitialCell_rel h is, hn.1]
    cases hc : checkCorrectDims t is m strict with
    | ok u =>
      cases hg : getInitialCell t is with
      | error e => exact .inr ⟨_, _, _, rfl, rfl, h⟩
      | ok cell =>
        rcases writeCells_rel hn.2 h.2 cell with ⟨e, g1, g2⟩ | ⟨a, b, g1, g2, g3⟩
        · simp only [g1, g2]; exact .inl ⟨_, rfl, rfl⟩
        · simp only [g1, g2]; exact .inr ⟨_, _, _, rfl, rfl, h.1, g3⟩
    | error e =>
      cases e with
      | mismatchedWeak d1 d2 =>
        cases hr : m.route with
        | nil => exact .inl ⟨_, rfl, rfl⟩
        | cons k ks =>
          exact weakLoop_rel (fun s t is n m h1 h2 => ih s t is n m h1 h2) hn _ _ h
      | outOfBounds => exact .inr ⟨_, _, _, rfl, rfl, h⟩
      | mismatched a b => exact .inr ⟨_, _, _, rfl, rfl, h⟩

/-- Related outcomes: the same error or related results. -/
def Par {γ δ : Type} (Q : γ → δ → Prop) (x : Ax γ) (y : Ax δ) : Prop :=
  (∃ e, x = .error e ∧ y = .error e) ∨ ∃ a b, x = .ok a ∧ y = .ok b ∧ Q a b

theorem Par.ok {γ δ : Type} {Q : γ → δ → Prop} {x : Ax γ} {y : Ax δ} (h : Par Q x y) {a : γ} {b : δ}
    (hx : x = .ok a) (hy : y = .ok b) : Q a b := by
  rcases h with ⟨e, h1, _⟩ | ⟨a', b', h1, h2, h3⟩
  · rw [hx] at h1; cases h1
  · rw [hx] at h1; rw [hy] at h2
    cases h1; cases h2; exact h3

theorem access_rel {s : Slice α} {t : Slice β} (h : RS R s t) (is : List Nat) :
    Par (RS R) (access s is) (access t is) := by
  unfold access
  rcases accessValues_rel h is with ⟨e, g1, g2⟩ | ⟨e, g1, g2⟩ | ⟨a, b, g1, g2, g3⟩
  · rw [g1, g2]; exact .inl ⟨_, rfl, rfl⟩
  · rw [g1, g2]; exact .inl ⟨_, rfl, rfl⟩
  · rw [g1, g2]; exact .inr ⟨_, _, rfl, rfl, g3⟩

theorem insertVoid_rel {s : Slice α} {t : Slice β} {n : Slice α} {m : Slice β} (h : RS R s t)
    (hn : RS R n m) (is : List Nat) : Par (RS R) (insertVoid s is n) (insertVoid t is m) := by
  unfold insertVoid insertValues
  rw [hn.1]
  rcases insertRec_rel false (m.route.length + 1) s t is n m h hn with ⟨e, g1, g2⟩ | ⟨a, b, r, g1, g2, g3⟩
  · rw [g1, g2]; exact .inl ⟨_, rfl, rfl⟩
  · rw [g1, g2]
    cases r with
    | ok u => exact .inr ⟨_, _, rfl, rfl, g3⟩
    | error e =>
      cases e with
      | mismatchedWeak d1 d2 => exact .inr ⟨_, _, rfl, rfl, g3⟩
      | outOfBounds => exact .inl ⟨_, rfl, rfl⟩
      | mismatched a b => exact .inl ⟨_, rfl, rfl⟩

theorem newWithRoute_rel {a : α} {b : β} (hab : R a b) (route : List Nat) :
    RS R (newWithRoute route a) (newWithRoute route b) := by
  refine ⟨rfl, ?_⟩
  simp only [newWithRoute]
  generalize route.foldl (· * ·) 1 = n
  induction n with
  | zero => exact .nil
  | succ n ih => exact .cons hab ih

theorem fillRows_rel {ss : List (Slice α)} {ts : List (Slice β)} (hs : List.Forall₂ (RS R) ss ts)
    {s : Slice α} {t : Slice β} (h : RS R s t) (row : Nat) :
    Par (RS R) (fillRows s row ss) (fillRows t row ts) := by
  induction hs generalizing s t row with
  | nil => exact .inr ⟨_, _, rfl, rfl, h⟩
  | cons h1 _ ih =>
    simp only [fillRows]
    rcases insertVoid_rel h h1 [row] with ⟨e, g1, g2⟩ | ⟨a, b, g1, g2, g3⟩
    · rw [g1, g2]; exact .inl ⟨_, rfl, rfl⟩
    · rw [g1, g2]; exact ih g3 _

theorem maxRoutes_rel {ss : List (Slice α)} {ts : List (Slice β)} (hs : List.Forall₂ (RS R) ss ts)
    (ds : List Nat) : maxRoutes ds ss = maxRoutes ds ts := by
  induction hs generalizing ds with
  | nil => rfl
  | cons h1 _ ih =>
    simp only [maxRoutes, h1.1]
    split
    · rfl
    · exact ih _

theorem inlineArray_rel {ss : List (Slice α)} {ts : List (Slice β)} (hs : List.Forall₂ (RS R) ss ts)
    {a : α} {b : β} (hab : R a b) : Par (RS R) (inlineArray a ss) (inlineArray b ts) := by
  cases hs with
  | nil => exact .inl ⟨_, rfl, rfl⟩
  | @cons s t ss ts h1 h2 =>
    simp only [inlineArray]
    rw [h1.1, maxRoutes_rel h2, h2.length_eq]
    cases maxRoutes t.route ts with
    | error e => exact .inl ⟨_, rfl, rfl⟩
    | ok dims => exact fillRows_rel (.cons h1 h2) (newWithRoute_rel hab _) 0

theorem uniformArray_rel {s : Slice α} {t : Slice β} (h : RS R s t) {a : α} {b : β} (hab : R a b)
    (n : Nat) : Par (RS R) (uniformArray a n s) (uniformArray b n t) := by
  unfold uniformArray
  rw [h.1]
  refine fillRows_rel ?_ (newWithRoute_rel hab _) 0
  induction n with
  | zero => exact .nil
  | succ n ih => exact .cons h ih

/-! ### Shapes and untouched cells -/

section Keeps

variable {P : α → Prop} {Q : α → α → Prop}

theorem accessValues_all {s r : Slice α} {is : List Nat} (h : ∀ v ∈ s.values, P v)
    (hr : accessValues s is = .ok (.ok r)) : ∀ v ∈ r.values, P v := by
  have hs : RS (fun a b : α => a = b ∧ P a) s s :=
    ⟨rfl, List.forall₂_same.2 fun x hx => ⟨rfl, h x hx⟩⟩
  rcases accessValues_rel hs is with ⟨e, g1, g2⟩ | ⟨e, g1, g2⟩ | ⟨a, b, g1, g2, g3⟩
  · rw [hr] at g1; cases g1
  · rw [hr] at g1; cases g1
  · rw [hr] at g1; cases g1
    intro v hv
    obtain ⟨i, hi⟩ := List.mem_iff_getElem?.1 hv
    rcases forall₂_getElem? g3.2 i with ⟨f1, _⟩ | ⟨x, y, f1, _, f3⟩
    · rw [hi] at f1; cases f1
    · rw [hi] at f1; cases f1; exact f3.2

theorem forall₂_trans_of {Q : α → α → Prop} (ht : ∀ a b c, Q a b → Q b c → Q a c) {x y z : List α}
    (h1 : List.Forall₂ Q x y) (h2 : List.Forall₂ Q y z) : List.Forall₂ Q x z := by
  induction h1 generalizing z with
  | nil => cases h2; exact .nil
  | cons a b ih => cases h2 with | cons c d => exact .cons (ht _ _ _ a c) (ih d)

theorem writeCells_keeps (hr : ∀ a, Q a a) (ht : ∀ a b c, Q a b → Q b c → Q a c)
    (hp : ∀ a v, P v → Q a v) {ns vs vs' : List α} {cell : Nat} (hn : ∀ v ∈ ns, P v)
    (h : writeCells vs cell ns = .ok vs') : List.Forall₂ Q vs vs' := by
  induction ns generalizing vs cell with
  | nil =>
    simp only [writeCells, Except.ok.injEq] at h
    subst h
    exact List.forall₂_same.2 fun x _ => hr x
  | cons n ns ih =>
    simp only [writeCells] at h
    split at h
    · have h1 := ih (fun v hv => hn v (.tail _ hv)) h
      have h2 : List.Forall₂ Q vs (vs.set cell n) := by
        have hv : P n := hn n (.head _)
        clear h h1 ih
        induction vs generalizing cell with
        | nil => exact .nil
        | cons v vs ih =>
          cases cell with
          | zero => exact .cons (hp v n hv) (List.forall₂_same.2 fun x _ => hr x)
          | succ c => exact .cons (hr v) (ih (by rename_i hlt; simpa using hlt))
      exact forall₂_trans_of ht h2 h1
    · cases h

/-- Every cell is kept or overwritten by one of the new values. -/
theorem insertRec_keeps (hr : ∀ a, Q a a) (ht : ∀ a b c, Q a b → Q b c → Q a c)
    (hp : ∀ a v, P v → Q a v) (strict : Bool) (fuel : Nat) :
    ∀ (s : Slice α) (is : List Nat) (n s' : Slice α) (r : Except MemErr Unit), (∀ v ∈ n.values, P v) →
      insertRec strict fuel s is n = .ok (s', r) → RS Q s s' := by
  have hrefl : ∀ s : Slice α, RS Q s s := fun s => ⟨rfl, List.forall₂_same.2 fun x _ => hr x⟩
  induction fuel with
  | zero => intro s is n s' r _ h; cases h
  | succ fuel ih =>
    intro s is n s' r hn h
    simp only [insertRec] at h
    split at h
    · split at h
      · cases h; exact hrefl s
      · split at h
        · cases h
        · rename_i vs hw
          cases h
          exact ⟨rfl, writeCells_keeps hr ht hp hn hw⟩
    · split at h
      · cases h
      · rename_i d1 d2 _ k _ _
        have key : ∀ (ks : List Nat) (s s' : Slice α) (f : MemErr) (r : Except MemErr Unit),
            weakLoop (insertRec strict fuel) is n f ks s = .ok (s', r) → RS Q s s' := by
          intro ks
          induction ks with
          | nil => intro s s' f r h; cases h; exact hrefl s
          | cons k ks ihk =>
            intro s s' f r h
            simp only [weakLoop] at h
            split at h
            · cases h
            · cases h; exact hrefl s
            · rename_i sub hsub
              split at h
              · cases h
              · rename_i s1 r1 h1
                have g1 := ih s _ sub s1 _ (accessValues_all hn hsub) h1
                have g2 := ihk s1 s' f r h
                exact ⟨g1.1.trans g2.1, forall₂_trans_of ht g1.2 g2.2⟩
        exact key _ _ _ _ _ h
    · cases h; exact hrefl s

theorem insertVoid_keeps (hr : ∀ a, Q a a) (ht : ∀ a b c, Q a b → Q b c → Q a c)
    (hp : ∀ a v, P v → Q a v) {s n s' : Slice α} {is : List Nat} (hn : ∀ v ∈ n.values, P v)
    (h : insertVoid s is n = .ok s') : RS Q s s' := by
  unfold insertVoid insertValues at h
  split at h
  · cases h
  · rename_i a hx; cases h; exact insertRec_keeps hr ht hp _ _ _ _ _ _ _ hn hx
  · rename_i a _ _ hx; cases h; exact insertRec_keeps hr ht hp _ _ _ _ _ _ _ hn hx
  · cases h

/-- Writing keeps the shape. -/
theorem insertVoid_shape {s n s' : Slice α} {is : List Nat} (h : insertVoid s is n = .ok s') :
    s'.route = s.route ∧ s'.values.length = s.values.length := by
  have := insertVoid_keeps (P := fun _ => True) (Q := fun _ _ => True) (fun _ => trivial)
    (fun _ _ _ _ _ => trivial) (fun _ _ _ => trivial) (fun _ _ => trivial) h
  exact ⟨this.1.symm, this.2.length_eq.symm⟩

theorem insertVoid_shaped {s n s' : Slice α} {is : List Nat} (hs : Shaped s)
    (h : insertVoid s is n = .ok s') : Shaped s' := by
  obtain ⟨h1, h2⟩ := insertVoid_shape h
  unfold Shaped at *
  rw [h1, h2, hs]

theorem newWithRoute_shaped (route : List Nat) (v : α) : Shaped (newWithRoute route v) := by
  simp [Shaped, newWithRoute, foldl_mul_eq]

theorem copyCells_length : ∀ (n : Nat) (vs : List α) (start : Nat) (r : List α),
    copyCells vs start n = .ok r → r.length = n := by
  intro n
  induction n with
  | zero => intro vs start r h; cases h; rfl
  | succ n ih =>
    intro vs start r h
    simp only [copyCells] at h
    split at h
    · cases h
    · cases hx : copyCells vs (start + 1) n with
      | error e => rw [hx] at h; cases h
      | ok y =>
        rw [hx] at h
        cases h
        simp [ih _ _ _ hx]

/-- Shape of the result of an access. -/
theorem access_shape {s r : Slice α} {is : List Nat} (hs : Shaped s) (h : access s is = .ok r) :
    Shaped r ∧ is.length ≤ s.route.length ∧ r.route = s.route.drop is.length := by
  unfold access at h
  split at h
  · cases h
  · cases h
  · rename_i x hx
    cases h
    unfold accessValues at hx
    split at hx
    · rename_i hi
      cases hx
      have : is = [] := by simpa using hi
      subst this
      exact ⟨hs, by simp, by simp⟩
    · split at hx
      · cases hx
      · rename_i size n hnr
        split at hx
        · cases hx
        · split at hx
          · cases hx
          · rename_i vs hcp
            cases hx
            unfold newRoute at hnr
            split at hnr
            · cases hnr
            · rename_i hlen
              cases hnr
              refine ⟨?_, by omega, rfl⟩
              have := copyCells_length _ _ _ _ hcp
              unfold Shaped
              rw [this, foldl_mul_eq, one_mul]

theorem fillRows_shape {ss : List (Slice α)} {s r : Slice α} {row : Nat} (hs : Shaped s)
    (h : fillRows s row ss = .ok r) : Shaped r ∧ r.route = s.route := by
  induction ss generalizing s row with
  | nil => cases h; exact ⟨hs, rfl⟩
  | cons v vs ih =>
    simp only [fillRows] at h
    split at h
    · cases h
    · rename_i s' h1
      obtain ⟨g1, g2⟩ := ih (insertVoid_shaped hs h1) h
      exact ⟨g1, g2.trans (insertVoid_shape h1).1⟩

theorem maxRoute_length : ∀ (ds rs x : List Nat), maxRoute ds rs = .ok x → x.length = ds.length := by
  intro ds
  induction ds with
  | nil => intro rs x h; cases rs <;> cases h; rfl
  | cons d ds ih =>
    intro rs x h
    cases rs with
    | nil => cases h; rfl
    | cons r rs =>
      simp only [maxRoute] at h
      cases hx : maxRoute ds rs with
      | error e => rw [hx] at h; cases h
      | ok y => rw [hx] at h; cases h; simp [ih _ _ hx]

theorem maxRoutes_length (ss : List (Slice α)) : ∀ (ds x : List Nat), maxRoutes ds ss = .ok x →
    x.length = ds.length := by
  induction ss with
  | nil => intro ds x h; cases h; rfl
  | cons s ss ih =>
    intro ds x h
    simp only [maxRoutes] at h
    split at h
    · cases h
    · rename_i y hy
      rw [ih _ _ h, maxRoute_length _ _ _ hy]

theorem inlineArray_shape {zero : α} {ss : List (Slice α)} {r : Slice α}
    (h : inlineArray zero ss = .ok r) :
    Shaped r ∧ ∃ s rest, ss = s :: rest ∧ r.route.length = s.route.length + 1 := by
  cases ss with
  | nil => cases h
  | cons s ss =>
    simp only [inlineArray] at h
    split at h
    · cases h
    · rename_i dims hd
      obtain ⟨g1, g2⟩ := fillRows_shape (newWithRoute_shaped _ _) h
      refine ⟨g1, s, ss, rfl, ?_⟩
      rw [g2]
      simp [newWithRoute, maxRoutes_length _ _ _ hd]

theorem uniformArray_shape {d : α} {n : Nat} {s r : Slice α} (h : uniformArray d n s = .ok r) :
    Shaped r ∧ r.route = n :: s.route :=
  fillRows_shape (newWithRoute_shaped _ _) h

/-- Overwriting the whole array. -/
theorem insertVoid_whole {s : Slice α} (hs : Shaped s) (v : α) :
    insertVoid s [] (newWithRoute s.route v) = .ok (newWithRoute s.route v) := by
  unfold insertVoid insertValues
  have hc : checkCorrectDims s [] (newWithRoute s.route v) false = .ok () := by
    simp only [checkCorrectDims, newWithRoute, List.length_nil, Nat.zero_add, gt_iff_lt, lt_irrefl,
      if_false, dropAccess]
    have : ∀ l : List Nat, compareDims false l l = .ok () := by
      intro l
      induction l with
      | nil => rfl
      | cons a l ih => simp [compareDims, ih]
    exact this _
  have hg : getInitialCell s [] = .ok 0 := by
    simp [getInitialCell, cellLoop]
  have hl : (newWithRoute s.route v).values.length = s.values.length := by
    rw [newWithRoute_shaped, hs]; rfl
  have hw : writeCells s.values 0 (newWithRoute s.route v).values = .ok (newWithRoute s.route v).values := by
    obtain ⟨vs', h1, h2, h3⟩ := writeCells_ok (newWithRoute s.route v).values s.values 0 (by omega)
    rw [h1]
    congr 1
    apply List.ext_getElem?
    intro i
    rw [h3 i]
    by_cases hi : i < (newWithRoute s.route v).values.length
    · rw [if_pos ⟨Nat.zero_le _, by omega⟩]; rfl
    · rw [if_neg (by omega), List.getElem?_eq_none (by omega), List.getElem?_eq_none (by omega)]
  simp only [insertRec, hc, hg, hw]
  rfl

end Keeps

end Verif.ArrExec
