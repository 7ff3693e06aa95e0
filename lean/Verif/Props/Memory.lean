import Verif.MemoryLemmas

set_option linter.unusedSectionVars false

/-!
Properties C40, C41, C42 and C61: the arrays of the symbolic executor
(`program_structure/src/utils/memory_slice.rs`).
-/

namespace Verif.Props.Memory

open Verif.ModArith Verif.Memory

variable {α : Type}

/-- A 2×3 array with the cells 10..15. -/
def grid : Slice Nat := ⟨[2, 3], [10, 11, 12, 13, 14, 15]⟩

/-! ### C40 -/

/-- C40, first half: a full index gives a position below the number of cells, namely the row-major
one, and that position is converted back to the index. -/
theorem C40_position {s : Slice α} (hs : Shaped s) {idx : List Nat} (h : Valid idx s.route) :
    ∃ k, getInitialCell s idx = .ok k ∧ k < s.values.length ∧
      k = (idx.zip s.route).foldl (fun acc x => acc * x.2 + x.1) 0 ∧
      getAccessIndex s k = .ok (.ok idx) := by
  have hl := h.length
  have hlt : offset idx s.route < s.values.length := by rw [hs]; exact offset_lt _ _ h
  refine ⟨offset idx s.route, getInitialCell_valid hs (by rw [hl, List.take_length]; exact h),
    hlt, ?_, ?_⟩
  · have key : ∀ (as ds : List Nat), Valid as ds → ∀ a,
        (as.zip ds).foldl (fun acc x => acc * x.2 + x.1) a = a * ds.prod + offset as ds := by
      intro as ds hv
      induction hv with
      | nil => intro a; simp [offset]
      | cons hlt _ ih =>
        intro a
        simp only [List.zip_cons_cons, List.foldl_cons, ih, List.prod_cons, offset]
        rw [Nat.add_mul, Nat.mul_assoc, Nat.add_assoc]
    rw [key _ _ h 0]
    simp
  · unfold getAccessIndex
    rw [if_neg (by omega), hs, indexLoop_offset _ _ h]

example : ∃ k, getInitialCell grid [1, 2] = .ok k ∧ k < grid.values.length ∧
    k = (([1, 2] : List Nat).zip grid.route).foldl (fun acc x => acc * x.2 + x.1) 0 ∧
    getAccessIndex grid k = .ok (.ok [1, 2]) :=
  C40_position (by decide) (by decide)

/-- C40: distinct full indices have distinct positions. -/
theorem C40_injective {s : Slice α} (hs : Shaped s) {i j : List Nat} (hi : Valid i s.route)
    (hj : Valid j s.route) (h : getInitialCell s i = getInitialCell s j) : i = j := by
  obtain ⟨k, h1, _, _, h2⟩ := C40_position hs hi
  obtain ⟨l, h3, _, _, h4⟩ := C40_position hs hj
  rw [h1, h3] at h
  injection h with h
  subst h
  rw [h2] at h4
  injection h4 with h4
  injection h4

example : getInitialCell grid [1, 0] ≠ getInitialCell grid [0, 2] := fun h =>
  absurd (C40_injective (s := grid) (by decide) (by decide) (by decide) h) (by decide)

/-- C40, second half: every position below the number of cells is converted to a valid index, which
has that position. -/
theorem C40_inverse {s : Slice α} (hs : Shaped s) {k : Nat} (h : k < s.values.length) :
    ∃ idx, getAccessIndex s k = .ok (.ok idx) ∧ Valid idx s.route ∧
      getInitialCell s idx = .ok k := by
  obtain ⟨as, he, hv, ho⟩ := indexLoop_valid s.route k (by rw [← hs]; exact h)
  have hl := hv.length
  refine ⟨as, ?_, hv, ?_⟩
  · unfold getAccessIndex
    rw [if_neg (by omega), hs, he]
  · rw [getInitialCell_valid hs (by rw [hl, List.take_length]; exact hv), ho]

example : ∃ idx, getAccessIndex grid 4 = .ok (.ok idx) ∧ Valid idx grid.route ∧
    getInitialCell grid idx = .ok 4 := C40_inverse (by decide) (by decide)

/-- C40: an access is refused, without abort, exactly if it is too long or some index is not below
its dimension. -/
theorem C40_refused {s : Slice α} (hs : Shaped s) (idx : List Nat) :
    (∃ sub, accessValues s idx = .ok (.ok sub)) ∧ Valid idx (s.route.take idx.length) ∨
    accessValues s idx = .ok (.error .outOfBounds) ∧ ¬ Valid idx (s.route.take idx.length) := by
  by_cases h : Valid idx (s.route.take idx.length)
  · exact Or.inl ⟨⟨_, accessValues_valid hs h⟩, h⟩
  · exact Or.inr ⟨accessValues_invalid h, h⟩

example : accessValues grid [1, 3] = .ok (.error .outOfBounds) := by
  rcases C40_refused (s := grid) (by decide) [1, 3] with ⟨_, h⟩ | ⟨h, _⟩
  · exact absurd h (by decide)
  · exact h

/-- C40: the cells handed out for modification at an access are those read there. -/
theorem C40_mutable {s sub : Slice α} (hs : Shaped s) {acc : List Nat}
    (h : accessValues s acc = .ok (.ok sub)) :
    ∃ ps, mutPositions s acc = .ok ps ∧ ps.map (fun i => s.values[i]?) = sub.values.map some := by
  obtain ⟨hv, -, -, -⟩ := access_single hs h
  rw [accessValues_valid hs hv] at h
  injection h with h
  injection h with h
  subst h
  have hb := offset_le _ _ hv
  simp only []
  cases acc with
  | nil =>
    refine ⟨List.range s.values.length, rfl, ?_⟩
    have : s.values.take s.route.prod = s.values := by rw [← hs, List.take_length]
    simp only [List.length_nil, List.drop_zero, offset_nil, this]
    apply List.ext_getElem?
    intro i
    by_cases hi : i < s.values.length
    · simp [hi]
    · simp [hi]
  | cons a as =>
    generalize hacc : a :: as = acc at *
    refine ⟨(List.range s.values.length).filter (fun i => decide (i ≥ offset acc s.route) &&
      decide (i < offset acc s.route + (s.route.drop acc.length).prod)), ?_, ?_⟩
    · unfold mutPositions newRoute
      rw [if_neg (by simp [← hacc]), if_neg (by have := hv.take_length; omega)]
      simp only [foldl_mul_eq, Nat.one_mul, getInitialCell_valid hs hv]
    · have key : ∀ (o n m : Nat), o + n ≤ m → (List.range m).filter
          (fun i => decide (i ≥ o) && decide (i < o + n)) = List.range' o n := by
        intro o n m hle
        have : List.range m = List.range' 0 o ++ (List.range' o n ++ List.range' (o + n) (m - (o + n))) := by
          have e2 := List.range'_append_1 (s := 0) (m := o) (n := n + (m - (o + n)))
          rw [Nat.zero_add] at e2
          rw [List.range_eq_range', List.range'_append_1, e2]
          congr 1
          omega
        rw [this, List.filter_append, List.filter_append]
        rw [List.filter_eq_nil_iff.2, List.filter_eq_self.2, List.filter_eq_nil_iff.2]
        · simp
        · intro x hx
          have := List.mem_range'_1.1 hx
          simp; omega
        · intro x hx
          have := List.mem_range'_1.1 hx
          simp; omega
        · intro x hx
          have := List.mem_range'_1.1 hx
          simp; omega
      rw [key _ _ _ (by rw [hs]; exact hb)]
      apply List.ext_getElem?
      intro i
      by_cases hi : i < (s.route.drop acc.length).prod
      · have h1 : offset acc s.route + i < s.values.length := by rw [hs]; omega
        simp [hi, List.getElem?_take_of_lt, List.getElem?_eq_getElem h1]
      · rw [List.getElem?_eq_none (by simp; omega), List.getElem?_eq_none (by simp; omega)]

example : ∃ ps, mutPositions grid [1] = .ok ps ∧
    ps.map (fun i => grid.values[i]?) = [13, 14, 15].map some :=
  C40_mutable (s := grid) (sub := ⟨[3], [13, 14, 15]⟩) (by decide) (by decide)

/-! ### C41 -/

/-- C41: writing a value whose dimensions are the remaining ones succeeds (in both modes), keeps the
dimensions and the number of cells, and reading at the same access gives the written value. -/
theorem C41_read_back {s new : Slice α} (hs : Shaped s) (hn : Shaped new) {acc : List Nat}
    (hv : Valid acc (s.route.take acc.length)) (hr : new.route = s.route.drop acc.length)
    (strict : Bool) :
    ∃ s', insertValues s acc new strict = .ok (s', .ok ()) ∧ s'.route = s.route ∧
      s'.values.length = s.values.length ∧ accessValues s' acc = .ok (.ok new) ∧
      ∀ idx, Valid idx s.route → ¬ acc <+: idx → getSingle s' idx = getSingle s idx := by
  have hrank : acc.length + new.route.length = s.route.length := by
    have := hv.take_length
    rw [hr, List.length_drop]
    omega
  obtain ⟨s', he, hW⟩ : ∃ s', insertValues s acc new strict = .ok (s', .ok ()) ∧
      Written s acc new s' := by
    cases strict with
    | true => exact (insertRec_strict new.route.length s acc new hs hn hrank).1 hv hr
    | false =>
      obtain ⟨s', r, h1, h2, h3, _⟩ := insertRec_written (new.route.length + 1) s acc new
        (by omega) hs hn hrank
      rw [h3 hv hr] at h1
      exact ⟨s', h1, h2⟩
  have hlen : s'.values.length = s.values.length := by
    have h1 := hW.shaped
    unfold Shaped at h1 hs
    rw [h1, hW.route, hs]
  refine ⟨s', he, hW.route, hlen, ?_, fun idx hidx hno => hW.outside idx hidx
    (fun j _ heq => hno ⟨j, heq.symm⟩)⟩
  have hv' : Valid acc (s'.route.take acc.length) := by rw [hW.route]; exact hv
  have hread := accessValues_valid hW.shaped hv'
  obtain ⟨_, hsh, hrt, hcells⟩ := access_single hW.shaped hread
  rw [hread]
  congr 2
  refine slice_ext hsh hn (by rw [hrt, hr, hW.route]) (fun j hj => ?_)
  rw [hcells j hj]
  have hj' : Valid j new.route := by rw [hr, ← hW.route]; exact hj
  exact hW.inside j hj' ((valid_append _ _ _).2 ⟨hv, by rw [← hr]; exact hj'⟩)

example : ∃ s', insertValues grid [1] ⟨[3], [7, 8, 9]⟩ true = .ok (s', .ok ()) ∧
    s'.route = grid.route ∧ s'.values.length = grid.values.length ∧
    accessValues s' [1] = .ok (.ok ⟨[3], [7, 8, 9]⟩) ∧
    ∀ idx, Valid idx grid.route → ¬ [1] <+: idx → getSingle s' idx = getSingle grid idx :=
  C41_read_back (by decide) (by decide) (by decide) (by decide) true

/-- C41: reading a sub-array at any access which is no extension and no beginning of the written
one gives what was there before. -/
theorem C41_frame {s s' new : Slice α} (hs : Shaped s) (hn : Shaped new) {acc acc' : List Nat}
    (hv : Valid acc (s.route.take acc.length)) (hr : new.route = s.route.drop acc.length)
    (strict : Bool) (h : insertValues s acc new strict = .ok (s', .ok ()))
    (h1 : ¬ acc <+: acc') (h2 : ¬ acc' <+: acc) :
    accessValues s' acc' = accessValues s acc' := by
  obtain ⟨t, he, hrt, hlen, _, hout⟩ := C41_read_back hs hn hv hr strict
  rw [he] at h
  injection h with h
  injection h with h _
  subst h
  have ht : Shaped t := by
    unfold Shaped at hs ⊢
    rw [hlen, hrt, hs]
  by_cases hv' : Valid acc' (s.route.take acc'.length)
  · have e1 := accessValues_valid hs hv'
    have hv'' : Valid acc' (t.route.take acc'.length) := by rw [hrt]; exact hv'
    have e2 := accessValues_valid ht hv''
    obtain ⟨_, a1, a2, a3⟩ := access_single hs e1
    obtain ⟨_, b1, b2, b3⟩ := access_single ht e2
    rw [e1, e2]
    congr 2
    refine slice_ext b1 a1 (by rw [b2, a2, hrt]) (fun j hj => ?_)
    have hj' : Valid j (s.route.drop acc'.length) := by rw [← hrt]; exact hj
    rw [b3 j hj, a3 j hj']
    refine hout _ ((valid_append _ _ _).2 ⟨hv', hj'⟩) (fun hp => ?_)
    rcases List.prefix_or_prefix_of_prefix hp (List.prefix_append acc' j) with hp | hp
    · exact h1 hp
    · exact h2 hp
  · rw [accessValues_invalid hv', accessValues_invalid (by rw [hrt]; exact hv')]

example : ∀ s', insertValues grid [1] ⟨[3], [7, 8, 9]⟩ true = .ok (s', .ok ()) →
    accessValues s' [0] = accessValues grid [0] := fun _ h =>
  C41_frame (by decide) (by decide) (by decide) (by decide) true h (by decide) (by decide)

/-- C41: in the strict mode (signals) a value of other dimensions is refused and nothing is
written. -/
theorem C41_strict_refused {s new : Slice α} (hs : Shaped s) (hn : Shaped new) {acc : List Nat}
    (hrank : acc.length + new.route.length = s.route.length)
    (h : ¬ (Valid acc (s.route.take acc.length) ∧ new.route = s.route.drop acc.length)) :
    ∃ e, insertValues s acc new true = .ok (s, .error e) :=
  (insertRec_strict new.route.length s acc new hs hn hrank).2 h

example : ∃ e, insertValues grid [1] ⟨[2], [7, 8]⟩ true = .ok (grid, .error e) :=
  C41_strict_refused (by decide) (by decide) (by decide) (by decide)

/-- Outside C41: the check only compares the dimensions the value has, so a value of fewer
dimensions is accepted even in the strict mode and its cells go to the first cells of the
sub-array. -/
theorem C41_fewer_dimensions_accepted :
    ∃ (s new s' : Slice Nat), Shaped s ∧ Shaped new ∧ new.route ≠ s.route ∧
      insertValues s [] new true = .ok (s', .ok ()) ∧ getSingle s' [0, 1] = .ok (.ok 8) ∧
      getSingle s' [1, 0] = getSingle s [1, 0] :=
  ⟨grid, ⟨[2], [7, 8]⟩, ⟨[2, 3], [7, 8, 12, 13, 14, 15]⟩, by decide, by decide, by decide,
    by decide, by decide, by decide⟩

/-! ### C61 -/

/-- C61: in the lenient mode (variables) a value with as many dimensions as the sub-array is
assigned on the common indices only; the other cells keep their values, the dimensions are kept, and
a differing size is reported. The call never aborts; outside the array nothing is written. -/
theorem C61_lenient {s new : Slice α} (hs : Shaped s) (hn : Shaped new) {acc : List Nat}
    (hrank : acc.length + new.route.length = s.route.length) :
    ∃ s' r, insertValues s acc new false = .ok (s', r) ∧
      s'.route = s.route ∧ s'.values.length = s.values.length ∧
      (∀ j, Valid j new.route → Valid (acc ++ j) s.route →
        getSingle s' (acc ++ j) = getSingle new j) ∧
      (∀ idx, Valid idx s.route → (∀ j, Valid j new.route → idx ≠ acc ++ j) →
        getSingle s' idx = getSingle s idx) ∧
      (Valid acc (s.route.take acc.length) → new.route = s.route.drop acc.length →
        r = .ok ()) ∧
      (Valid acc (s.route.take acc.length) → new.route ≠ s.route.drop acc.length →
        ∃ n d, n ≠ d ∧ r = .error (.mismatchedWeak n d)) ∧
      (¬ Valid acc (s.route.take acc.length) → s' = s ∧ r = .error .outOfBounds) := by
  obtain ⟨s', r, h1, h2, h3, h4, h5⟩ := insertRec_written (new.route.length + 1) s acc new
    (by omega) hs hn hrank
  refine ⟨s', r, h1, h2.route, ?_, h2.inside, h2.outside, h3, h4, h5⟩
  have h1 := h2.shaped
  unfold Shaped at h1 hs
  rw [h1, h2.route, hs]

/-- A 3×2 value assigned to the 2×3 array: the common 2×2 part is taken over. -/
example : insertValues grid [] ⟨[3, 2], [1, 2, 3, 4, 5, 6]⟩ false =
    .ok (⟨[2, 3], [1, 2, 12, 3, 4, 15]⟩, .error (.mismatchedWeak 3 2)) := by decide

example : ∃ s' r, insertValues grid [] ⟨[3, 2], [1, 2, 3, 4, 5, 6]⟩ false = .ok (s', r) ∧
    getSingle s' [1, 1] = getSingle (⟨[3, 2], [1, 2, 3, 4, 5, 6]⟩ : Slice Nat) [1, 1] ∧
    getSingle s' [1, 2] = getSingle grid [1, 2] := by
  obtain ⟨s', r, h, _, _, h1, h2, _⟩ := C61_lenient (s := grid)
    (new := ⟨[3, 2], [1, 2, 3, 4, 5, 6]⟩) (acc := []) (by decide) (by decide) (by decide)
  refine ⟨s', r, h, h1 [1, 1] (by decide) (by decide), h2 [1, 2] (by decide) ?_⟩
  intro j hj heq
  simp only [List.nil_append] at heq
  subst heq
  exact absurd hj (by decide)

/-! ### C42 -/

/-- C42, apart from the index equal to the number of cells: an index inside gives the cell, a larger
one is reported; writing changes exactly that cell. -/
theorem C42_flat_partial (s : Slice α) (k : Nat) (h : k ≠ s.values.length) (v : α) :
    (∀ x, accessValueByIndex s k = .ok (.ok x) ↔ s.values[k]? = some x) ∧
    (accessValueByIndex s k = .ok (.error .outOfBounds) ↔ s.values.length ≤ k) ∧
    (insertValueByIndex s k v = .ok (.error .outOfBounds) ↔ s.values.length ≤ k) ∧
    (k < s.values.length → insertValueByIndex s k v = .ok (.ok ⟨s.route, s.values.set k v⟩)) := by
  unfold accessValueByIndex insertValueByIndex
  by_cases hk : k > s.values.length
  · simp only [if_pos hk]
    refine ⟨fun x => ?_, ?_, ?_, fun h => by omega⟩
    · rw [List.getElem?_eq_none (by omega)]; simp
    · simp; omega
    · simp; omega
  · have hlt : k < s.values.length := by omega
    simp only [if_neg hk, if_pos hlt, List.getElem?_eq_getElem hlt]
    refine ⟨fun x => by simp, by simp; omega, by simp; omega, fun _ => by trivial⟩

example : accessValueByIndex grid 7 = .ok (.error .outOfBounds) :=
  ((C42_flat_partial grid 7 (by decide) 0).2.1).2 (by decide)

/-- C42 is violated at every array: the index equal to the number of cells passes the guard and the
compiler aborts instead of reporting. -/
theorem C42_violated (s : Slice α) (v : α) :
    accessValueByIndex s s.values.length = .error .panic ∧
    insertValueByIndex s s.values.length v = .error .panic := by
  unfold accessValueByIndex insertValueByIndex
  simp

example : accessValueByIndex grid 6 = .error .panic := (C42_violated grid 0).1

/-- C42: the conversion of that same index does not report either. On a non-empty array of shape
`d :: ds` it answers with an index outside the array; on an empty one it aborts. -/
theorem C42_index_violated {s : Slice α} (hs : Shaped s) (d : Nat) (ds : List Nat)
    (hr : s.route = d :: ds) :
    (s.values.length ≠ 0 → ∃ idx, getAccessIndex s s.values.length = .ok (.ok idx) ∧
      ¬ Valid idx s.route) ∧
    (s.values.length = 0 → getAccessIndex s s.values.length = .error .panic) := by
  have hp : s.values.length = d * ds.prod := by rw [hs, hr]; simp
  constructor
  · intro hne
    have hd : 0 < d := Nat.pos_of_ne_zero (fun h => by subst h; simp at hp; simp [hp] at hne)
    have hds : 0 < ds.prod := Nat.pos_of_ne_zero (fun h => by rw [h] at hp; simp at hp; simp [hp] at hne)
    have hdiv : (d * ds.prod) / d = ds.prod := Nat.mul_div_cancel_left _ hd
    obtain ⟨as, he, hv, ho⟩ := indexLoop_valid ds 0 hds
    refine ⟨d :: as, ?_, ?_⟩
    · unfold getAccessIndex
      rw [if_neg (by omega), hr]
      simp only [indexLoop, hp, hdiv]
      rw [if_neg (by omega), if_neg (by omega), Nat.mul_mod_left, he, Nat.mul_div_cancel _ hds]
      rfl
    · rw [hr]
      intro h
      have := (List.forall₂_cons.1 h).1
      omega
  · intro h0
    unfold getAccessIndex
    rw [if_neg (by omega), hr]
    simp only [indexLoop, h0, Nat.zero_div]
    by_cases hd : d = 0
    · rw [if_pos hd]
    · rw [if_neg hd, if_pos trivial]

example : getAccessIndex grid 6 = .ok (.ok [2, 0]) := by decide

example : ∃ idx, getAccessIndex grid 6 = .ok (.ok idx) ∧ ¬ Valid idx grid.route :=
  (C42_index_violated (s := grid) (by decide) 2 [3] rfl).1 (by decide)

end Verif.Props.Memory
