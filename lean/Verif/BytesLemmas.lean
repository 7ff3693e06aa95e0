import Verif.Bytes

/-! Lemmas about byte encodings. -/

namespace Verif.Bytes

/-- Every entry is a byte. -/
def IsBytes (l : List Nat) : Prop := ∀ b ∈ l, b < 256

theorem isBytes_append {l l' : List Nat} : IsBytes (l ++ l') ↔ IsBytes l ∧ IsBytes l' := by
  unfold IsBytes; simp only [List.mem_append]; constructor
  · intro h; exact ⟨fun b hb => h b (Or.inl hb), fun b hb => h b (Or.inr hb)⟩
  · rintro ⟨h1, h2⟩ b (hb | hb); exacts [h1 b hb, h2 b hb]

theorem isBytes_toBytesLE (n : Nat) : IsBytes (toBytesLE n) := by
  unfold toBytesLE IsBytes
  split
  · simp
  · intro b hb; exact Nat.digits_lt_base (by norm_num) hb

theorem from_toBytesLE (n : Nat) : fromBytesLE (toBytesLE n) = n := by
  unfold fromBytesLE toBytesLE
  split
  · rename_i h; simp [h]
  · exact Nat.ofDigits_digits 256 n

theorem toBytesLE_ne_nil (n : Nat) : toBytesLE n ≠ [] := by
  unfold toBytesLE
  split
  · simp
  · rename_i h; exact Nat.digits_ne_nil_iff_ne_zero.2 h

theorem toBytesLE_inj {n m : Nat} (h : toBytesLE n = toBytesLE m) : n = m := by
  rw [← from_toBytesLE n, h, from_toBytesLE]

theorem fromBytesLE_append (l l' : List Nat) : fromBytesLE (l ++ l') = fromBytesLE l + 256 ^ l.length * fromBytesLE l' :=
  Nat.ofDigits_append

theorem fromBytesLE_zeros (k : Nat) : fromBytesLE (List.replicate k 0) = 0 := by
  unfold fromBytesLE
  induction k with
  | zero => rfl
  | succ k ih => rw [List.replicate_succ, Nat.ofDigits_cons, ih]

theorem length_toBytesLE {n w : Nat} (hw : 0 < w) (h : n < 256 ^ w) : (toBytesLE n).length ≤ w := by
  unfold toBytesLE
  split
  · exact hw
  · rw [Nat.digits_length_le_iff (by norm_num)]; exact h

theorem length_intoFormat_ge (l : List Nat) (w : Nat) : w ≤ (intoFormat l w).length := by
  unfold intoFormat; simp only [List.length_append, List.length_replicate]; omega

theorem length_intoFormat {l : List Nat} {w : Nat} (h : l.length ≤ w) : (intoFormat l w).length = w := by
  unfold intoFormat; simp only [List.length_append, List.length_replicate]; omega

theorem from_intoFormat (l : List Nat) (w : Nat) : fromBytesLE (intoFormat l w) = fromBytesLE l := by
  unfold intoFormat; rw [fromBytesLE_append, fromBytesLE_zeros]; simp

theorem isBytes_intoFormat {l : List Nat} (h : IsBytes l) (w : Nat) : IsBytes (intoFormat l w) := by
  unfold intoFormat; rw [isBytes_append]
  refine ⟨h, fun b hb => ?_⟩
  rw [List.eq_of_mem_replicate hb]; norm_num

theorem isBytes_bigintAsBytes (x : Int) (w : Nat) : IsBytes (bigintAsBytes x w) :=
  isBytes_intoFormat (isBytes_toBytesLE _) w

theorem length_bigintAsBytes {x : Int} {w : Nat} (hw : 0 < w) (h0 : 0 ≤ x) (h : x < 256 ^ w) : (bigintAsBytes x w).length = w := by
  unfold bigintAsBytes
  refine length_intoFormat (length_toBytesLE hw ?_)
  zify; rwa [abs_of_nonneg h0]

theorem from_bigintAsBytes {x : Int} (w : Nat) (h0 : 0 ≤ x) : (fromBytesLE (bigintAsBytes x w) : Int) = x := by
  unfold bigintAsBytes
  rw [from_intoFormat, from_toBytesLE]
  exact Int.natAbs_of_nonneg h0

theorem length_natAsBytes {n w : Nat} (hw : 0 < w) (h : n < 256 ^ w) : (bigintAsBytes (n : Int) w).length = w :=
  length_bigintAsBytes hw (by omega) (by exact_mod_cast h)

theorem from_natAsBytes (n w : Nat) : fromBytesLE (bigintAsBytes (n : Int) w) = n := by
  have := from_bigintAsBytes (x := (n : Int)) w (by omega); exact_mod_cast this

/-! ## Two's complement -/

theorem twos_false_twice {l : List Nat} (h : IsBytes l) : twos false (twos false l) = l := by
  induction l with
  | nil => rfl
  | cons d ds ih =>
    have hd := h d (by simp)
    simp only [twos]
    rw [ih fun b hb => h b (by simp [hb])]
    congr 1; omega

theorem twos_true_twice {l : List Nat} (h : IsBytes l) : twos true (twos true l) = l := by
  induction l with
  | nil => rfl
  | cons d ds ih =>
    have hd := h d (by simp)
    have hds : IsBytes ds := fun b hb => h b (by simp [hb])
    by_cases h0 : d = 0
    · subst h0; simp only [twos]; norm_num; exact ih hds
    · have e1 : (255 - d + 1) % 256 = 256 - d := by rw [Nat.mod_eq_of_lt (by omega)]; omega
      have e3 : ¬ 256 - d = 0 := by omega
      simp only [twos, e1, decide_eq_false e3]
      have e2 : (255 - (256 - d) + 1) % 256 = d := by rw [Nat.mod_eq_of_lt (by omega)]; omega
      rw [e2, decide_eq_false h0, twos_false_twice hds]

theorem twos_append_last (c : Bool) (l : List Nat) (hl : IsBytes l) (x : Nat) : (twos c (l ++ [x])).getLast? =
    some (if c = true ∧ ∀ d ∈ l, d = 0 then (255 - x + 1) % 256 else 255 - x) := by
  induction l generalizing c with
  | nil => cases c <;> simp [twos]
  | cons d ds ih =>
    have hd := hl d (by simp)
    have ih' := fun c => ih c fun b hb => hl b (by simp [hb])
    have hne : ∀ c, twos c (ds ++ [x]) ≠ [] := by
      intro c h; have := ih' c; rw [h] at this; cases this
    cases c with
    | false =>
      simp only [List.cons_append, twos]
      rw [List.getLast?_cons, ih']; simp
    | true =>
      simp only [List.cons_append, twos]
      rw [List.getLast?_cons, ih']
      simp only [Option.getD_some, true_and, List.mem_cons, forall_eq_or_imp, decide_eq_true_eq]
      congr 1
      by_cases h0 : d = 0
      · subst h0; simp
      · rw [if_neg (by rintro ⟨h, _⟩; omega), if_neg (by rintro ⟨h, _⟩; exact h0 h)]

theorem getLast_toBytesLE {n : Nat} (h : n ≠ 0) : ∃ init x, toBytesLE n = init ++ [x] ∧ x ≠ 0 := by
  have hne := toBytesLE_ne_nil n
  refine ⟨(toBytesLE n).dropLast, (toBytesLE n).getLast hne, (List.dropLast_append_getLast hne).symm, ?_⟩
  unfold toBytesLE
  simp only [h, if_false]
  exact Nat.getLast_digit_ne_zero 256 h

theorem isBytes_extend {b : List Nat} (h : IsBytes b) (neg : Bool) : IsBytes (extend neg b) := by
  unfold extend; simp only; split
  · rw [isBytes_append]; exact ⟨h, by simp [IsBytes]⟩
  · exact h

theorem from_extend (b : List Nat) (neg : Bool) : fromBytesLE (extend neg b) = fromBytesLE b := by
  unfold extend; simp only; split
  · rw [fromBytesLE_append]; simp [fromBytesLE, Nat.ofDigits]
  · rfl

/-- Reading back a signed encoding. -/
theorem from_toSignedBytesLE (x : Int) : fromSignedBytesLE (toSignedBytesLE x) = x := by
  unfold toSignedBytesLE
  simp only
  by_cases hx : x < 0
  · -- negative: the top bit is set
    simp only [hx, decide_true, if_true]
    obtain ⟨init, y, he, hy⟩ := getLast_toBytesLE (n := x.natAbs) (by omega)
    have hb := isBytes_toBytesLE x.natAbs
    have hb' := isBytes_extend hb true
    have hlast : ∃ v, (twos true (extend true (toBytesLE x.natAbs))).getLast? = some v ∧ 0x7f < v := by
      rw [he] at hb
      obtain ⟨hbi, hby⟩ := isBytes_append.1 hb
      have hy256 := hby y (by simp)
      rw [he]
      unfold extend
      simp only [List.getLast?_append, List.getLast?_singleton, Option.some_or, Option.getD_some, List.dropLast_concat, and_true]
      split
      · rename_i h
        refine ⟨_, twos_append_last true (init ++ [y]) hb 0, ?_⟩
        rw [if_neg]
        · norm_num
        · rintro ⟨_, hz⟩; exact hy (hz y (by simp))
      · rename_i h
        refine ⟨_, twos_append_last true init hbi y, ?_⟩
        by_cases hz : ∀ d ∈ init, d = 0
        · rw [if_pos ⟨rfl, hz⟩]
          have : y ≤ 0x80 := by
            by_contra hc; exact h ⟨by omega, by rintro ⟨h', _⟩; omega⟩
          rw [Nat.mod_eq_of_lt (by omega)]; omega
        · rw [if_neg (by rintro ⟨_, h'⟩; exact hz h')]
          have : y ≤ 0x7f := by
            by_contra hc; exact h ⟨by omega, by rintro ⟨_, h'⟩; exact hz h'⟩
          omega
    obtain ⟨v, hv, hv'⟩ := hlast
    unfold fromSignedBytesLE
    rw [hv]
    simp only [hv', if_true]
    rw [twos_true_twice hb', from_extend, from_toBytesLE]
    omega
  · simp only [hx, if_false, decide_false]
    have hlast : ∃ v, (extend false (toBytesLE x.natAbs)).getLast? = some v ∧ ¬ 0x7f < v := by
      have hne := toBytesLE_ne_nil x.natAbs
      unfold extend
      simp only [Bool.false_eq_true, and_false, not_false_eq_true, and_true]
      split
      · exact ⟨0, by simp, by norm_num⟩
      · rename_i h
        rw [List.getLast?_eq_some_getLast hne] at h ⊢
        exact ⟨_, rfl, by simpa using h⟩
    obtain ⟨v, hv, hv'⟩ := hlast
    unfold fromSignedBytesLE
    rw [hv]
    simp only [hv', if_false]
    rw [from_extend, from_toBytesLE]; omega

theorem isBytes_twos (c : Bool) (l : List Nat) : IsBytes (twos c l) := by
  induction l generalizing c with
  | nil => cases c <;> simp [twos, IsBytes]
  | cons d ds ih =>
    cases c <;> simp only [twos, IsBytes, List.mem_cons, forall_eq_or_imp]
    · exact ⟨by omega, ih _⟩
    · exact ⟨Nat.mod_lt _ (by norm_num), ih _⟩

end Verif.Bytes
