import Verif.Memory
import Mathlib.Data.List.Forall2
import Mathlib.Algebra.BigOperators.Group.List.Basic

set_option linter.unusedSectionVars false
set_option linter.unusedSimpArgs false

/-! Auxiliary facts on the array model of `Verif.Memory`. -/

namespace Verif.Memory

open Verif.ModArith

variable {α : Type}

/-- Each index is below the dimension at its place, and there are as many of them. -/
def Valid (idx route : List Nat) : Prop := List.Forall₂ (· < ·) idx route

instance (idx route : List Nat) : Decidable (Valid idx route) := by
  unfold Valid; infer_instance

/-- As many cells as the dimensions say. -/
def Shaped (s : Slice α) : Prop := s.values.length = s.route.prod

instance (s : Slice α) : Decidable (Shaped s) := by unfold Shaped; infer_instance

/-- Row-major position of an index (or of the first cell behind a partial index). -/
def offset : List Nat → List Nat → Nat
  | a :: as, _ :: ds => a * ds.prod + offset as ds
  | _, _ => 0

theorem cellLoop_valid : ∀ (as ds1 ds2 : List Nat) (cell : Nat), Valid as ds1 →
    cellLoop as (ds1 ++ ds2) (ds1 ++ ds2).prod cell = .ok (cell + offset as (ds1 ++ ds2))
  | [], [], ds2, cell, _ => by cases ds2 <;> simp [cellLoop, offset]
  | a :: as, d :: ds1, ds2, cell, h => by
    obtain ⟨hlt, hrest⟩ := List.forall₂_cons.1 h
    have hd : 0 < d := by omega
    have hdiv : (d * (ds1 ++ ds2).prod) / d = (ds1 ++ ds2).prod := Nat.mul_div_cancel_left _ hd
    have ih := cellLoop_valid as ds1 ds2 (cell + (ds1 ++ ds2).prod * a) hrest
    simp only [List.cons_append, List.prod_cons, cellLoop, ge_iff_le]
    rw [if_neg (by omega), hdiv, ih]
    congr 1
    simp only [offset]
    rw [Nat.mul_comm a, Nat.add_assoc]
  | [], _ :: _, _, _, h => by cases h
  | _ :: _, [], _, _, h => by cases h

theorem cellLoop_ok : ∀ (as ds : List Nat) (jump cell k : Nat), cellLoop as ds jump cell = .ok k →
    Valid as (ds.take as.length)
  | [], ds, _, _, _, _ => by simp [Valid]
  | a :: as, [], _, _, _, h => by simp [cellLoop] at h
  | a :: as, d :: ds, jump, cell, k, h => by
    simp only [cellLoop] at h
    split at h
    · simp at h
    · have ih := cellLoop_ok as ds _ _ k h
      simp only [List.length_cons, List.take_succ_cons]
      exact List.Forall₂.cons (by omega) ih

theorem cellLoop_error : ∀ (as ds : List Nat) (jump cell : Nat) (e : MemErr),
    cellLoop as ds jump cell = .error e → e = .outOfBounds
  | [], _, _, _, _, h => by simp [cellLoop] at h
  | a :: as, [], _, _, e, h => by simp [cellLoop] at h; exact h.symm
  | a :: as, d :: ds, jump, cell, e, h => by
    simp only [cellLoop] at h
    split at h
    · simp at h; exact h.symm
    · exact cellLoop_error as ds _ _ e h

theorem Valid.length {idx route : List Nat} (h : Valid idx route) : idx.length = route.length :=
  List.Forall₂.length_eq h

theorem Valid.take_length {as ds : List Nat} (h : Valid as (ds.take as.length)) :
    as.length ≤ ds.length := by
  have := h.length
  simp at this
  omega

theorem getInitialCell_valid {s : Slice α} (hs : Shaped s) {as : List Nat}
    (h : Valid as (s.route.take as.length)) :
    getInitialCell s as = .ok (offset as s.route) := by
  unfold getInitialCell
  rw [if_neg (by have := h.take_length; omega)]
  have := cellLoop_valid as _ (s.route.drop as.length) 0 h
  rw [List.take_append_drop] at this
  rw [hs, this, Nat.zero_add]

theorem getInitialCell_ok {s : Slice α} {as : List Nat} {k : Nat}
    (h : getInitialCell s as = .ok k) : Valid as (s.route.take as.length) := by
  unfold getInitialCell at h
  split at h
  · simp at h
  · exact cellLoop_ok _ _ _ _ _ h

theorem getInitialCell_error {s : Slice α} {as : List Nat} {e : MemErr}
    (h : getInitialCell s as = .error e) : e = .outOfBounds := by
  unfold getInitialCell at h
  split at h
  · simp at h; exact h.symm
  · exact cellLoop_error _ _ _ _ _ h

theorem getInitialCell_invalid {s : Slice α} {as : List Nat}
    (h : ¬ Valid as (s.route.take as.length)) : getInitialCell s as = .error .outOfBounds := by
  cases hc : getInitialCell s as with
  | ok k => exact absurd (getInitialCell_ok hc) h
  | error e => rw [getInitialCell_error hc]

theorem offset_nil (ds : List Nat) : offset [] ds = 0 := by cases ds <;> rfl

theorem offset_append : ∀ (as js ds : List Nat), as.length ≤ ds.length →
    offset (as ++ js) ds = offset as ds + offset js (ds.drop as.length)
  | [], js, ds, _ => by simp [offset_nil]
  | a :: as, js, [], h => by simp at h
  | a :: as, js, d :: ds, h => by
    simp only [List.cons_append, offset, List.length_cons, List.drop_succ_cons]
    rw [offset_append as js ds (by simpa using h)]
    omega

theorem offset_lt : ∀ (as ds : List Nat), Valid as ds → offset as ds < ds.prod
  | [], [], _ => by simp [offset]
  | a :: as, d :: ds, h => by
    obtain ⟨hlt, hrest⟩ := List.forall₂_cons.1 h
    have ih := offset_lt as ds hrest
    simp only [offset, List.prod_cons]
    calc a * ds.prod + offset as ds < a * ds.prod + ds.prod := by omega
      _ = (a + 1) * ds.prod := by rw [Nat.add_mul, Nat.one_mul]
      _ ≤ d * ds.prod := Nat.mul_le_mul_right _ (by omega)
  | [], _ :: _, h => by cases h
  | _ :: _, [], h => by cases h

theorem offset_le (as ds : List Nat) (h : Valid as (ds.take as.length)) :
    offset as ds + (ds.drop as.length).prod ≤ ds.prod := by
  induction as generalizing ds with
  | nil => simp [offset_nil]
  | cons a as ih =>
    cases ds with
    | nil => cases h
    | cons d ds =>
      simp only [List.length_cons, List.take_succ_cons] at h
      obtain ⟨hlt, hrest⟩ := List.forall₂_cons.1 h
      have := ih ds hrest
      simp only [offset, List.prod_cons, List.length_cons, List.drop_succ_cons]
      calc a * ds.prod + offset as ds + (ds.drop as.length).prod
          ≤ a * ds.prod + ds.prod := by omega
        _ = (a + 1) * ds.prod := by rw [Nat.add_mul, Nat.one_mul]
        _ ≤ d * ds.prod := Nat.mul_le_mul_right _ (by omega)

theorem indexLoop_offset : ∀ (as ds : List Nat), Valid as ds →
    indexLoop ds ds.prod (offset as ds) = .ok as
  | [], [], _ => by simp [indexLoop]
  | a :: as, d :: ds, h => by
    obtain ⟨hlt, hrest⟩ := List.forall₂_cons.1 h
    have hb := offset_lt as ds hrest
    have hdiv : (d * ds.prod) / d = ds.prod := Nat.mul_div_cancel_left _ (by omega)
    have hq : (a * ds.prod + offset as ds) / ds.prod = a := by
      rw [Nat.mul_comm, Nat.mul_add_div (by omega), Nat.div_eq_of_lt hb, Nat.add_zero]
    have hm : (a * ds.prod + offset as ds) % ds.prod = offset as ds := by
      rw [Nat.mul_comm, Nat.mul_add_mod, Nat.mod_eq_of_lt hb]
    simp only [indexLoop, List.prod_cons, hdiv, offset]
    rw [if_neg (by omega), if_neg (by omega), hq, hm, indexLoop_offset as ds hrest]
    rfl
  | [], _ :: _, h => by cases h
  | _ :: _, [], h => by cases h

theorem indexLoop_valid : ∀ (ds : List Nat) (k : Nat), k < ds.prod →
    ∃ as, indexLoop ds ds.prod k = .ok as ∧ Valid as ds ∧ offset as ds = k
  | [], k, h => ⟨[], rfl, .nil, by simp at h; simp [offset, h]⟩
  | d :: ds, k, h => by
    simp only [List.prod_cons] at h
    have hd : 0 < d := Nat.pos_of_ne_zero (fun h0 => by subst h0; simp at h)
    have hp : 0 < ds.prod := Nat.pos_of_ne_zero (fun h0 => by rw [h0] at h; simp at h)
    have hdiv : (d * ds.prod) / d = ds.prod := Nat.mul_div_cancel_left _ hd
    obtain ⟨as, he, hv, ho⟩ := indexLoop_valid ds (k % ds.prod) (Nat.mod_lt _ hp)
    refine ⟨k / ds.prod :: as, ?_, .cons ?_ hv, ?_⟩
    · simp only [indexLoop, List.prod_cons, hdiv]
      rw [if_neg (by omega), if_neg (by omega), he]
      rfl
    · exact Nat.div_lt_of_lt_mul (by rw [Nat.mul_comm]; exact h)
    · simp only [offset, ho]
      rw [Nat.mul_comm]
      exact Nat.div_add_mod _ _

theorem offset_inj {as bs ds : List Nat} (ha : Valid as ds) (hb : Valid bs ds)
    (h : offset as ds = offset bs ds) : as = bs := by
  have h1 := indexLoop_offset as ds ha
  have h2 := indexLoop_offset bs ds hb
  rw [h, h2] at h1
  cases h1
  rfl

theorem foldl_mul_eq (l : List Nat) (a : Nat) : l.foldl (· * ·) a = a * l.prod := by
  induction l generalizing a with
  | nil => simp
  | cons x l ih => simp [ih, Nat.mul_assoc]

theorem copyCells_ok : ∀ (n : Nat) (vs : List α) (start : Nat), start + n ≤ vs.length →
    copyCells vs start n = .ok ((vs.drop start).take n)
  | 0, vs, start, _ => by simp [copyCells]
  | n + 1, vs, start, h => by
    have hlt : start < vs.length := by omega
    simp only [copyCells, List.getElem?_eq_getElem hlt]
    rw [copyCells_ok n vs (start + 1) (by omega)]
    rw [show (vs.drop start).take (n + 1) = vs[start] :: (vs.drop (start + 1)).take n by
      rw [List.drop_eq_getElem_cons hlt, List.take_succ_cons]]
    rfl

theorem writeCells_ok : ∀ (news vs : List α) (cell : Nat), cell + news.length ≤ vs.length →
    ∃ vs', writeCells vs cell news = .ok vs' ∧ vs'.length = vs.length ∧
      ∀ i, vs'[i]? = if cell ≤ i ∧ i < cell + news.length then news[i - cell]? else vs[i]?
  | [], vs, cell, _ => ⟨vs, rfl, rfl, fun i => by
      rw [if_neg (by simp)]⟩
  | v :: news, vs, cell, h => by
    simp only [List.length_cons] at h
    obtain ⟨vs', he, hl, hi⟩ := writeCells_ok news (vs.set cell v) (cell + 1) (by simp; omega)
    refine ⟨vs', ?_, by simpa using hl, fun i => ?_⟩
    · simp only [writeCells]
      rw [if_pos (by omega), he]
    · rw [hi i]
      by_cases h1 : cell + 1 ≤ i ∧ i < cell + 1 + news.length
      · rw [if_pos h1, if_pos (by simp only [List.length_cons]; omega)]
        have : i - cell = (i - (cell + 1)) + 1 := by omega
        rw [this, List.getElem?_cons_succ]
      · rw [if_neg h1]
        by_cases h2 : i = cell
        · subst h2
          rw [if_pos (by simp only [List.length_cons]; omega)]
          simp [List.getElem?_set_self (show i < vs.length by omega)]
        · rw [if_neg (by simp only [List.length_cons]; omega),
            List.getElem?_set_ne (by omega)]

theorem getSingle_valid {s : Slice α} (hs : Shaped s) {idx : List Nat} (h : Valid idx s.route) :
    ∃ v, s.values[offset idx s.route]? = some v ∧ getSingle s idx = .ok (.ok v) := by
  have hlt : offset idx s.route < s.values.length := by rw [hs]; exact offset_lt _ _ h
  refine ⟨s.values[offset idx s.route], List.getElem?_eq_getElem hlt, ?_⟩
  unfold getSingle
  have hl := h.length
  rw [if_neg (by simp [hl])]
  rw [getInitialCell_valid hs (by rw [hl, List.take_length]; exact h)]
  simp [List.getElem?_eq_getElem hlt]

theorem getSingle_congr {s t : Slice α} (hs : Shaped s) (ht : Shaped t) {i j : List Nat}
    (hi : Valid i s.route) (hj : Valid j t.route)
    (h : s.values[offset i s.route]? = t.values[offset j t.route]?) :
    getSingle s i = getSingle t j := by
  obtain ⟨v, hv, he⟩ := getSingle_valid hs hi
  obtain ⟨w, hw, hf⟩ := getSingle_valid ht hj
  rw [he, hf]
  rw [hv, hw] at h
  rw [Option.some.inj h]

theorem dropAccess_ok : ∀ (as ds rest : List Nat), dropAccess as ds = .ok rest →
    Valid as (ds.take as.length) ∧ rest = ds.drop as.length
  | [], ds, rest, h => by
    simp only [dropAccess] at h
    cases h
    exact ⟨by simp [Valid], by simp⟩
  | a :: as, [], _, h => by simp [dropAccess] at h
  | a :: as, d :: ds, rest, h => by
    simp only [dropAccess] at h
    split at h
    · simp at h
    · obtain ⟨h1, h2⟩ := dropAccess_ok as ds rest h
      exact ⟨.cons (by omega) h1, by simpa using h2⟩

theorem dropAccess_error : ∀ (as ds : List Nat) (e : MemErr), dropAccess as ds = .error e →
    e = .outOfBounds ∧ ¬ Valid as (ds.take as.length)
  | [], ds, e, h => by simp [dropAccess] at h
  | a :: as, [], e, h => by
    simp [dropAccess] at h
    exact ⟨h.symm, by intro hv; cases hv⟩
  | a :: as, d :: ds, e, h => by
    simp only [dropAccess] at h
    split at h
    · simp at h
      refine ⟨h.symm, fun hv => ?_⟩
      have := (List.forall₂_cons.1 hv).1
      omega
    · obtain ⟨h1, h2⟩ := dropAccess_error as ds e h
      exact ⟨h1, fun hv => h2 (List.forall₂_cons.1 hv).2⟩

/-- The comparison accepts exactly a prefix of the remaining dimensions. -/
theorem compareDims_ok (strict : Bool) : ∀ (ns ds : List Nat),
    compareDims strict ns ds = .ok () ↔ ns <+: ds
  | [], ds => by simp [compareDims]
  | n :: ns, [] => by simp [compareDims]
  | n :: ns, d :: ds => by
    simp only [compareDims]
    by_cases h1 : n < d
    · rw [if_pos h1]
      constructor
      · cases strict <;> simp
      · intro h; have := (List.cons_prefix_cons.1 h).1; omega
    · rw [if_neg h1]
      by_cases h2 : n > d
      · rw [if_pos h2]
        constructor
        · cases strict <;> simp
        · intro h; have := (List.cons_prefix_cons.1 h).1; omega
      · rw [if_neg h2, compareDims_ok strict ns ds, List.cons_prefix_cons]
        constructor
        · intro h; exact ⟨by omega, h⟩
        · exact fun h => h.2

/-- With as many dimensions as needed the comparison fails with the error of the mode. -/
theorem compareDims_error (strict : Bool) : ∀ (ns ds : List Nat) (e : MemErr),
    ns.length ≤ ds.length → compareDims strict ns ds = .error e →
    ns ≠ [] ∧ ∃ n d, n ≠ d ∧ e = (if strict then .mismatched n d else .mismatchedWeak n d)
  | [], ds, e, _, h => by simp [compareDims] at h
  | n :: ns, [], e, hl, _ => by simp at hl
  | n :: ns, d :: ds, e, hl, h => by
    refine ⟨by simp, ?_⟩
    simp only [compareDims] at h
    by_cases h1 : n < d
    · rw [if_pos h1] at h
      refine ⟨n, d, by omega, ?_⟩
      cases strict <;> simp at h <;> simp [h]
    · rw [if_neg h1] at h
      by_cases h2 : n > d
      · rw [if_pos h2] at h
        refine ⟨n, d, by omega, ?_⟩
        cases strict <;> simp at h <;> simp [h]
      · rw [if_neg h2] at h
        exact (compareDims_error strict ns ds e (by simpa using hl) h).2

theorem accessValues_valid {s : Slice α} (hs : Shaped s) {as : List Nat}
    (h : Valid as (s.route.take as.length)) :
    accessValues s as = .ok (.ok ⟨s.route.drop as.length,
      (s.values.drop (offset as s.route)).take (s.route.drop as.length).prod⟩) := by
  unfold accessValues
  cases as with
  | nil =>
    have : s.values.take s.route.prod = s.values := by rw [← hs, List.take_length]
    simp [offset_nil, this]
  | cons a as =>
    have hle := h.take_length
    have hb := offset_le _ _ h
    simp only [List.isEmpty_cons, Bool.false_eq_true, if_false]
    unfold newRoute
    rw [if_neg (by omega)]
    simp only [foldl_mul_eq, Nat.one_mul]
    rw [getInitialCell_valid hs h]
    simp only []
    rw [copyCells_ok _ _ _ (by rw [hs]; exact hb)]

theorem accessValues_invalid {s : Slice α} {as : List Nat}
    (h : ¬ Valid as (s.route.take as.length)) :
    accessValues s as = .ok (.error .outOfBounds) := by
  unfold accessValues
  cases as with
  | nil => exact absurd (by simp [Valid]) h
  | cons a as =>
    simp only [List.isEmpty_cons, Bool.false_eq_true, if_false]
    unfold newRoute
    by_cases hl : (a :: as).length > s.route.length
    · rw [if_pos hl]
    · rw [if_neg hl]
      simp only []
      rw [getInitialCell_invalid h]

theorem shaped_access {s : Slice α} (hs : Shaped s) {as : List Nat}
    (h : Valid as (s.route.take as.length)) :
    Shaped (⟨s.route.drop as.length,
      (s.values.drop (offset as s.route)).take (s.route.drop as.length).prod⟩ : Slice α) := by
  have := offset_le _ _ h
  unfold Shaped at hs ⊢
  simp
  omega

theorem valid_append : ∀ (as js ds : List Nat),
    Valid (as ++ js) ds ↔ Valid as (ds.take as.length) ∧ Valid js (ds.drop as.length)
  | [], js, ds => by simp [Valid]
  | a :: as, js, [] => by simp [Valid]
  | a :: as, js, d :: ds => by
    have ih := valid_append as js ds
    unfold Valid at ih ⊢
    simp only [List.cons_append, List.length_cons, List.take_succ_cons, List.drop_succ_cons,
      List.forall₂_cons, ih, and_assoc]

/-- What an assignment of `new` at the access `acc` of `s` should leave: the shape is kept, the cells
whose index exists on both sides are those of `new`, all others are untouched. -/
structure Written (s : Slice α) (acc : List Nat) (new s' : Slice α) : Prop where
  route : s'.route = s.route
  shaped : Shaped s'
  inside : ∀ j, Valid j new.route → Valid (acc ++ j) s.route →
    getSingle s' (acc ++ j) = getSingle new j
  outside : ∀ idx, Valid idx s.route → (∀ j, Valid j new.route → idx ≠ acc ++ j) →
    getSingle s' idx = getSingle s idx

theorem written_refl {s : Slice α} (hs : Shaped s) {acc : List Nat} {new : Slice α}
    (h : ¬ Valid acc (s.route.take acc.length)) : Written s acc new s :=
  ⟨rfl, hs, fun j _ hj => absurd ((valid_append acc j s.route).1 hj).1 h, fun _ _ _ => rfl⟩

/-- The block write of a value of the remaining shape. -/
theorem written_exact {s new : Slice α} (hs : Shaped s) (hn : Shaped new) {acc : List Nat}
    (hv : Valid acc (s.route.take acc.length)) (hr : new.route = s.route.drop acc.length) :
    ∃ vs, writeCells s.values (offset acc s.route) new.values = .ok vs ∧
      Written s acc new ⟨s.route, vs⟩ := by
  have hle := offset_le _ _ hv
  have hnl : new.values.length = (s.route.drop acc.length).prod := by rw [hn, hr]
  obtain ⟨vs, he, hl, hi⟩ := writeCells_ok new.values s.values (offset acc s.route)
    (by rw [hnl, hs]; exact hle)
  have hsh : Shaped (⟨s.route, vs⟩ : Slice α) := by
    unfold Shaped at hs ⊢
    simp only [hl, hs]
  refine ⟨vs, he, rfl, hsh, fun j hj hja => ?_, fun idx hidx hno => ?_⟩
  · refine getSingle_congr (s := ⟨s.route, vs⟩) hsh hn hja hj ?_
    simp only []
    have hoj : offset j new.route < new.values.length := by rw [hn]; exact offset_lt _ _ hj
    rw [offset_append acc j s.route hv.take_length, ← hr, hi,
      if_pos ⟨by omega, by omega⟩]
    congr 1
    omega
  · refine getSingle_congr (s := ⟨s.route, vs⟩) hsh hs hidx hidx ?_
    simp only []
    rw [hi, if_neg]
    intro ⟨h1, h2⟩
    obtain ⟨j, _, hj, hjo⟩ := indexLoop_valid (s.route.drop acc.length)
      (offset idx s.route - offset acc s.route) (by omega)
    refine hno j (by rw [hr]; exact hj) ?_
    refine offset_inj hidx ((valid_append _ _ _).2 ⟨hv, hj⟩) ?_
    rw [offset_append acc j s.route hv.take_length, hjo]
    omega

/-- Reading the sub-array at one index. -/
theorem sub_single {new : Slice α} (hn : Shaped new) {n : Nat} {ns : List Nat}
    (hr : new.route = n :: ns) {i : Nat} (hi : i < n) :
    ∃ sub, accessValues new [i] = .ok (.ok sub) ∧ Shaped sub ∧ sub.route = ns ∧
      ∀ j, Valid j ns → getSingle sub j = getSingle new (i :: j) := by
  have hv : Valid [i] (new.route.take [i].length) := by
    rw [hr]; simpa [Valid] using hi
  refine ⟨_, accessValues_valid hn hv, shaped_access hn hv, by simp [hr], fun j hj => ?_⟩
  have hvj : Valid (i :: j) new.route := by rw [hr]; exact .cons hi hj
  refine getSingle_congr (shaped_access hn hv) hn (by simpa [hr] using hj) hvj ?_
  have h1 : offset j ns < ns.prod := offset_lt _ _ hj
  simp only [hr, List.length_singleton, List.drop_succ_cons, List.drop_zero, offset,
    Nat.add_zero]
  rw [List.getElem?_take_of_lt h1, List.getElem?_drop]

/-- The relation between the array before and after the treatment of some of the first indices. -/
structure Partly (s : Slice α) (acc : List Nat) (new : Slice α) (done : Nat → Prop)
    (s' : Slice α) : Prop where
  route : s'.route = s.route
  shaped : Shaped s'
  inside : ∀ i j, done i → Valid (i :: j) new.route → Valid (acc ++ i :: j) s.route →
    getSingle s' (acc ++ i :: j) = getSingle new (i :: j)
  outside : ∀ idx, Valid idx s.route →
    (∀ i j, done i → Valid (i :: j) new.route → idx ≠ acc ++ i :: j) →
    getSingle s' idx = getSingle s idx

theorem weakLoop_partly (rec : Slice α → List Nat → Slice α → Res (Slice α × Except MemErr Unit))
    {s new : Slice α} {acc : List Nat} {final : MemErr} (hn : Shaped new) {n : Nat}
    {ns : List Nat} (hr : new.route = n :: ns)
    (hrec : ∀ t i sub, Shaped t → t.route = s.route → Shaped sub → sub.route = ns →
      ∃ t' r, rec t (acc ++ [i]) sub = .ok (t', r) ∧ Written t (acc ++ [i]) sub t') :
    ∀ (is : List Nat) (done : Nat → Prop) (t : Slice α), (∀ i ∈ is, i < n) →
      Partly s acc new done t →
      ∃ t', weakLoop rec acc new final is t = .ok (t', .error final) ∧
        Partly s acc new (fun i => done i ∨ i ∈ is) t'
  | [], done, t, _, h => ⟨t, rfl, by simpa using h⟩
  | i :: is, done, t, hlt, h => by
    obtain ⟨sub, he, hsub, hsr, hget⟩ := sub_single hn hr (hlt i (by simp))
    obtain ⟨t', r, hc, hw⟩ := hrec t i sub h.shaped h.route hsub hsr
    have hstep : Partly s acc new (fun x => done x ∨ x = i) t' := by
      refine ⟨hw.route.trans h.route, hw.shaped, fun x j hx hxj hxs => ?_, fun idx hidx hno => ?_⟩
      · by_cases hxi : x = i
        · subst hxi
          have hj : Valid j ns := by rw [hr] at hxj; exact (List.forall₂_cons.1 hxj).2
          have := hw.inside j (by rw [hsr]; exact hj)
            (by rw [h.route]; simpa using hxs)
          rw [List.append_assoc, List.singleton_append] at this
          rw [this, hget j hj]
        · have hd : done x := hx.resolve_right hxi
          rw [hw.outside _ (by rw [h.route]; exact hxs), h.inside x j hd hxj hxs]
          intro j' _ heq
          rw [List.append_assoc, List.singleton_append, List.append_cancel_left_eq] at heq
          exact hxi (by injection heq)
      · rw [hw.outside idx (by rw [h.route]; exact hidx), h.outside idx hidx]
        · exact fun x j hx => hno x j (Or.inl hx)
        · intro j hj
          rw [List.append_assoc, List.singleton_append]
          exact hno i j (Or.inr rfl)
            (by rw [hr]; exact .cons (hlt i (by simp)) (by rw [← hsr]; exact hj))
    obtain ⟨t'', hc', hp⟩ := weakLoop_partly rec (final := final) hn hr hrec is _ t'
      (fun x hx => hlt x (by simp [hx])) hstep
    refine ⟨t'', ?_, ?_⟩
    · simp only [weakLoop, he, hc, hc']
    · have : (fun x => done x ∨ x ∈ i :: is) = (fun x => (done x ∨ x = i) ∨ x ∈ is) := by
        funext x; simp [or_assoc]
      rw [this]
      exact hp

theorem checkCorrectDims_cases {s new : Slice α} {acc : List Nat} (strict : Bool)
    (hrank : acc.length + new.route.length = s.route.length) :
    (checkCorrectDims s acc new strict = .error .outOfBounds ∧
        ¬ Valid acc (s.route.take acc.length)) ∨
    (Valid acc (s.route.take acc.length) ∧ new.route = s.route.drop acc.length ∧
      checkCorrectDims s acc new strict = .ok ()) ∨
    (Valid acc (s.route.take acc.length) ∧ new.route ≠ s.route.drop acc.length ∧
      new.route ≠ [] ∧ ∃ n d, n ≠ d ∧ checkCorrectDims s acc new strict =
        .error (if strict then .mismatched n d else .mismatchedWeak n d)) := by
  unfold checkCorrectDims
  rw [if_neg (by omega)]
  cases hd : dropAccess acc s.route with
  | error e =>
    obtain ⟨he, hv⟩ := dropAccess_error _ _ _ hd
    subst he
    exact Or.inl ⟨rfl, hv⟩
  | ok rest =>
    obtain ⟨hv, hrest⟩ := dropAccess_ok _ _ _ hd
    subst hrest
    have hlen : new.route.length = (s.route.drop acc.length).length := by simp; omega
    simp only []
    cases hc : compareDims strict new.route (s.route.drop acc.length) with
    | ok u =>
      refine Or.inr (Or.inl ⟨hv, ?_, rfl⟩)
      exact ((compareDims_ok strict _ _).1 hc).eq_of_length hlen
    | error e =>
      obtain ⟨h1, n, d, h2, h3⟩ := compareDims_error strict _ _ e (by omega) hc
      refine Or.inr (Or.inr ⟨hv, ?_, h1, n, d, h2, by rw [h3]⟩)
      intro heq
      have := (compareDims_ok strict new.route (s.route.drop acc.length)).2
        (by rw [heq]; exact List.prefix_refl _)
      rw [hc] at this
      simp at this

theorem insertRec_written : ∀ (fuel : Nat) (s : Slice α) (acc : List Nat) (new : Slice α),
    new.route.length < fuel → Shaped s → Shaped new →
    acc.length + new.route.length = s.route.length →
    ∃ s' r, insertRec false fuel s acc new = .ok (s', r) ∧ Written s acc new s' ∧
      (Valid acc (s.route.take acc.length) → new.route = s.route.drop acc.length →
        r = .ok ()) ∧
      (Valid acc (s.route.take acc.length) → new.route ≠ s.route.drop acc.length →
        ∃ n d, n ≠ d ∧ r = .error (.mismatchedWeak n d)) ∧
      (¬ Valid acc (s.route.take acc.length) → s' = s ∧ r = .error .outOfBounds)
  | 0, _, _, _, h, _, _, _ => by omega
  | fuel + 1, s, acc, new, hf, hs, hn, hrank => by
    rcases checkCorrectDims_cases (s := s) (new := new) false hrank with
      ⟨hc, hv⟩ | ⟨hv, hr, hc⟩ | ⟨hv, hne, hnil, n, d, hnd, hc⟩
    · refine ⟨s, .error .outOfBounds, by simp only [insertRec, hc], written_refl hs hv,
        fun h => absurd h hv, fun h => absurd h hv, fun _ => ⟨rfl, rfl⟩⟩
    · obtain ⟨vs, hw, hW⟩ := written_exact hs hn hv hr
      refine ⟨⟨s.route, vs⟩, .ok (), ?_, hW, fun _ _ => rfl, fun _ h => absurd hr h,
        fun h => absurd hv h⟩
      simp only [insertRec, hc, getInitialCell_valid hs hv, hw]
    · simp only [Bool.false_eq_true, if_false] at hc
      cases hroute : new.route with
      | nil => exact absurd hroute hnil
      | cons m ns =>
        have hstart : Partly s acc new (fun _ => False) s :=
          ⟨rfl, hs, fun _ _ h => h.elim, fun _ _ _ => rfl⟩
        obtain ⟨t', hl, hp⟩ := weakLoop_partly (insertRec false fuel) (final := .mismatchedWeak n d)
          hn hroute (fun t i sub ht htr hsub hsr => by
            obtain ⟨t', r, h1, h2, _⟩ := insertRec_written fuel t (acc ++ [i]) sub
              (by rw [hsr]; rw [hroute] at hf; simp at hf; omega) ht hsub
              (by rw [hsr, htr]; rw [hroute] at hrank; simp at hrank ⊢; omega)
            exact ⟨t', r, h1, h2⟩)
          (List.range m) _ s (fun i hi => List.mem_range.1 hi) hstart
        refine ⟨t', .error (.mismatchedWeak n d), ?_, ⟨hp.route, hp.shaped, ?_, ?_⟩, ?_,
          fun _ _ => ⟨n, d, hnd, rfl⟩, fun h => absurd hv h⟩
        · simp only [insertRec, hc, hroute, hl]
        · intro j hj hja
          rw [hroute] at hj
          cases j with
          | nil => cases hj
          | cons i j =>
            have hi := (List.forall₂_cons.1 hj).1
            exact hp.inside i j (Or.inr (List.mem_range.2 hi)) (by rw [hroute]; exact hj) hja
        · intro idx hidx hno
          exact hp.outside idx hidx (fun i j _ hij => hno (i :: j) hij)
        · intro _ h
          rw [← hroute] at h
          exact absurd h hne

theorem insertRec_strict (fuel : Nat) (s : Slice α) (acc : List Nat) (new : Slice α)
    (hs : Shaped s) (hn : Shaped new) (hrank : acc.length + new.route.length = s.route.length) :
    (Valid acc (s.route.take acc.length) → new.route = s.route.drop acc.length →
      ∃ s', insertRec true (fuel + 1) s acc new = .ok (s', .ok ()) ∧ Written s acc new s') ∧
    (¬ (Valid acc (s.route.take acc.length) ∧ new.route = s.route.drop acc.length) →
      ∃ e, insertRec true (fuel + 1) s acc new = .ok (s, .error e)) := by
  rcases checkCorrectDims_cases (s := s) (new := new) true hrank with
    ⟨hc, hv⟩ | ⟨hv, hr, hc⟩ | ⟨hv, hne, hnil, n, d, hnd, hc⟩
  · exact ⟨fun h => absurd h hv, fun _ => ⟨.outOfBounds, by simp only [insertRec, hc]⟩⟩
  · obtain ⟨vs, hw, hW⟩ := written_exact hs hn hv hr
    refine ⟨fun _ _ => ⟨⟨s.route, vs⟩, ?_, hW⟩, fun h => absurd ⟨hv, hr⟩ h⟩
    simp only [insertRec, hc, getInitialCell_valid hs hv, hw]
  · exact ⟨fun _ h => absurd h hne, fun _ => ⟨.mismatched n d, by simp only [insertRec, hc, if_true]⟩⟩

/-- Two arrays of one shape with the same cells are equal. -/
theorem slice_ext {s t : Slice α} (hs : Shaped s) (ht : Shaped t) (hr : s.route = t.route)
    (h : ∀ idx, Valid idx s.route → getSingle s idx = getSingle t idx) : s = t := by
  cases s with
  | mk r vs =>
    cases t with
    | mk r' ws =>
      simp only at hr
      subst hr
      congr 1
      have hl : vs.length = ws.length := by
        unfold Shaped at hs ht; simp only at hs ht; omega
      apply List.ext_getElem? 
      intro i
      by_cases hi : i < r.prod
      · obtain ⟨as, _, hv, ho⟩ := indexLoop_valid r i hi
        obtain ⟨v, h1, h2⟩ := getSingle_valid hs hv
        obtain ⟨w, h3, h4⟩ := getSingle_valid ht hv
        have := h as hv
        rw [h2, h4] at this
        simp only [ho] at h1 h3
        rw [h1, h3]
        injection this with this
        injection this with this
        rw [this]
      · unfold Shaped at hs; simp only at hs
        rw [List.getElem?_eq_none (by omega), List.getElem?_eq_none (by omega)]

/-- Cells of a read sub-array. -/
theorem access_single {s sub : Slice α} (hs : Shaped s) {as : List Nat}
    (h : accessValues s as = .ok (.ok sub)) :
    Valid as (s.route.take as.length) ∧ Shaped sub ∧ sub.route = s.route.drop as.length ∧
      ∀ j, Valid j sub.route → getSingle sub j = getSingle s (as ++ j) := by
  by_cases hv : Valid as (s.route.take as.length)
  · rw [accessValues_valid hs hv] at h
    injection h with h
    injection h with h
    subst h
    refine ⟨hv, shaped_access hs hv, rfl, fun j hj => ?_⟩
    refine getSingle_congr (shaped_access hs hv) hs hj ((valid_append _ _ _).2 ⟨hv, hj⟩) ?_
    simp only at hj ⊢
    rw [List.getElem?_take_of_lt (offset_lt _ _ hj), List.getElem?_drop,
      offset_append _ _ _ hv.take_length]
  · rw [accessValues_invalid hv] at h
    simp at h

end Verif.Memory
