import Verif.JsonDomLemmas

/-! Lemmas on `Verif.JsonIn`: numbers. -/

namespace Verif.JsonIn

set_option linter.unusedSimpArgs false
set_option linter.unusedVariables false

theorem char_le {a b : Char} : a ≤ b ↔ a.toNat ≤ b.toNat := by
  rw [Char.le_def, UInt32.le_iff_toNat_le]; rfl

theorem validChar_toNat {base : Nat} {c : Char} (hb : base ≤ 16) (h : validChar base c = true) :
    (48 ≤ c.toNat ∧ c.toNat < 64) ∨ (65 ≤ c.toNat ∧ c.toNat ≤ 70) ∨ (97 ≤ c.toNat ∧ c.toNat ≤ 102) := by
  unfold validChar at h
  simp only [char_le] at h
  have e0 : ('0' : Char).toNat = 48 := rfl
  have e1 : ('9' : Char).toNat = 57 := rfl
  have e2 : ('a' : Char).toNat = 97 := rfl
  have e3 : ('f' : Char).toNat = 102 := rfl
  have e4 : ('A' : Char).toNat = 65 := rfl
  have e5 : ('F' : Char).toNat = 70 := rfl
  rw [e0, e1, e2, e3, e4, e5] at h
  split at h
  · simp only [Bool.decide_or, Bool.or_eq_true, decide_eq_true_eq] at h
    omega
  · simp only [Bool.decide_and, Bool.and_eq_true, decide_eq_true_eq] at h
    omega

theorem validChar_space {base : Nat} {c : Char} (hb : base ≤ 16) (h : validChar base c = true) : jsSpace c = false := by
  have := validChar_toNat hb h
  unfold jsSpace
  simp only [List.mem_cons, List.not_mem_nil, or_false, decide_eq_false_iff_not]
  omega

theorem splitBase_le (l : List Char) : (splitBase l).1 ≤ 16 := by
  unfold splitBase
  split <;> simp

theorem splitBase_space (l : List Char) (h : (splitBase l).2.all (validChar (splitBase l).1) = true) :
    ∀ c ∈ l, jsSpace c = false := by
  have hb := splitBase_le l
  have key : ∀ c ∈ (splitBase l).2, jsSpace c = false := fun c hc => validChar_space hb (List.all_eq_true.1 h c hc)
  clear h hb
  revert key
  unfold splitBase
  split <;> intro key c hc <;> first
    | exact key c hc
    | (simp only [List.mem_cons] at hc
       rcases hc with rfl | rfl | hc
       · decide
       · decide
       · exact key c hc)

theorem trim_id {l : List Char} (h : ∀ c ∈ l, jsSpace c = false) :
    ((l.dropWhile jsSpace).reverse.dropWhile jsSpace).reverse = l := by
  have d : ∀ (l : List Char), (∀ c ∈ l, jsSpace c = false) → l.dropWhile jsSpace = l := by
    intro l h
    cases l with
    | nil => rfl
    | cons c l => rw [List.dropWhile_cons, h c (by simp)]; rfl
  rw [d l h, d l.reverse (fun c hc => h c (by simpa using hc)), List.reverse_reverse]

theorem str_same {s : String} {a b : Int} (h1 : cppStr s = some a) (h2 : jsStr s = some b) : a = b := by
  unfold cppStr at h1
  unfold jsStr at h2
  simp only at h1
  split at h1
  · rename_i hv
    rw [trim_id (splitBase_space _ hv)] at h2
    cases h1
    revert h2 hv
    generalize s.toList = l
    intro h2 hv
    unfold jsTrimmed at h2
    split at h2
    · cases h2; rfl
    · rename_i r
      exfalso
      have : splitBase ('+' :: r) = (10, '+' :: r) := by rfl
      rw [this] at hv
      simp [validChar] at hv
    · rename_i r
      exfalso
      have : splitBase ('-' :: r) = (10, '-' :: r) := by rfl
      rw [this] at hv
      simp [validChar] at hv
    · unfold jsDigits at h2
      split at h2
      · simpa using h2
      · cases h2
  · cases h1

/-- A number that both programs accept is the same for both. -/
theorem num_same {s : Sc} {a b : Int} (h1 : cppNum s = some a) (h2 : jsNum s = some b) : a = b := by
  cases s with
  | int z => simp only [cppNum, jsNum] at h1 h2; rw [h1] at h2; cases h2; rfl
  | str s => exact str_same h1 h2
  | bool _ => cases h1
  | null => cases h1
  | flt n d =>
    simp only [cppNum, Option.some.injEq] at h1
    simp only [jsNum] at h2
    split at h2
    · rename_i hd
      cases h2
      rw [← h1]
      unfold fixed0
      rw [Int.emod_eq_zero_of_dvd hd]
      simp only [Int.mul_zero]
      rw [if_neg]
      rintro (h | ⟨h, h'⟩)
      · omega
      · rw [← h, Int.ediv_zero] at h'; simp at h'
    · cases h2

/-- Integers up to `2^53` are doubles. -/
theorem near_exact {z : Int} (h : z.natAbs ≤ 2 ^ 53) : near z = some z := by
  have hn : nearNat z.natAbs = z.natAbs := by
    unfold nearNat
    simp only
    rcases Nat.lt_or_eq_of_le h with h | h
    · rw [if_pos]
      by_cases h0 : z.natAbs = 0
      · rw [h0]; rfl
      · have := (Nat.log2_lt h0).2 h
        omega
    · rw [h]; decide +kernel
  unfold near
  rw [hn, if_pos (lt_of_le_of_lt h (by decide +kernel)), Int.sign_mul_natAbs]

/-- Decimal digits as both programs read them. -/
theorem dec_str {s : String} (hne : s ≠ "") (h : ∀ c ∈ s.toList, '0' ≤ c ∧ c ≤ '9') :
    cppStr s = some ((digitsVal 10 s.toList : Nat) : Int) ∧ jsStr s = some ((digitsVal 10 s.toList : Nat) : Int) := by
  have hl : s.toList ≠ [] := by
    intro e
    apply hne
    apply String.toList_inj.1
    rw [e]; rfl
  have hd : ∀ c ∈ s.toList, 48 ≤ c.toNat ∧ c.toNat ≤ 57 := by
    intro c hc
    have := h c hc
    rw [char_le, char_le] at this
    exact this
  have hv : s.toList.all (validChar 10) = true := by
    rw [List.all_eq_true]
    intro c hc
    have := hd c hc
    unfold validChar
    simp only [char_le]
    rw [if_neg (by decide)]
    simp only [Bool.decide_and, Bool.and_eq_true, decide_eq_true_eq]
    exact ⟨this.1, by omega⟩
  unfold cppStr jsStr
  revert hl hd hv
  generalize s.toList = l
  intro hl hd hv
  have hb : splitBase l = (10, l) := by
    unfold splitBase
    split <;> first
      | rfl
      | (exfalso
         have := hd _ (List.mem_cons_of_mem _ (List.mem_cons_self ..))
         simp at this)
  have ht : jsTrimmed l = some ((digitsVal 10 l : Nat) : Int) := by
    unfold jsTrimmed
    split
    · exact absurd rfl hl
    · exfalso
      have := hd _ (List.mem_cons_self ..)
      simp at this
    · exfalso
      have := hd _ (List.mem_cons_self ..)
      simp at this
    · rw [hb]
      simp only [jsDigits]
      rw [if_pos ⟨hl, hv⟩]
      rfl
  refine ⟨?_, ?_⟩
  · rw [hb]; simp only; rw [if_pos hv]
  · rw [trim_id (fun c hc => validChar_space (base := 10) (by decide) (List.all_eq_true.1 hv c hc)), ht]

end Verif.JsonIn
