import Verif.LexerLemmas
import Mathlib.Data.List.TakeWhile
import Mathlib.Data.List.Induction

/-!
# The tokenizer cuts a text as the reference does
-/

set_option linter.unusedSimpArgs false
set_option linter.unusedVariables false

namespace Verif.Lexer

open Verif.Grammar

/-! ### Characters -/

theorem alpha_num {c : Char} : c.isAlpha = true ↔ (65 ≤ c.toNat ∧ c.toNat ≤ 90) ∨ (97 ≤ c.toNat ∧ c.toNat ≤ 122) := by
  simp [Char.isAlpha, Char.isUpper, Char.isLower, UInt32.le_iff_toNat_le]

theorem digit_num {c : Char} : c.isDigit = true ↔ 48 ≤ c.toNat ∧ c.toNat ≤ 57 := by
  simp [Char.isDigit, UInt32.le_iff_toNat_le]

theorem alpha_digit {c : Char} (h : c.isAlpha = true) : c.isDigit = false := by
  rw [← Bool.not_eq_true, digit_num]; rw [alpha_num] at h; omega

theorem mark_or {c : Char} (h : isMark c = true) : c = '$' ∨ c = '_' := by simpa [isMark] using h

theorem mark_digit {c : Char} (h : isMark c = true) : c.isDigit = false := by rcases mark_or h with rfl | rfl <;> rfl

theorem space_num {c : Char} (h : isSpace c = true) : c.toNat ≤ 32 ∨ 0x85 ≤ c.toNat := by
  simp [isSpace] at h; omega

theorem word_num {c : Char} (h : isWordChar c = true) : 35 ≤ c.toNat ∧ c.toNat ≤ 122 := by
  simp only [isWordChar, Bool.or_eq_true] at h
  rcases h with (h | h) | h
  · rw [alpha_num] at h; omega
  · rcases mark_or h with rfl | rfl <;> decide
  · rw [digit_num] at h; omega

theorem word_space {c : Char} (h : isWordChar c = true) : isSpace c = false := by
  by_contra h'
  have := space_num (by simpa using h')
  have := word_num h
  omega

theorem word_quote {c : Char} (h : isWordChar c = true) : c ≠ '"' := by
  rintro rfl; revert h; decide

theorem digit_word {c : Char} (h : c.isDigit = true) : isWordChar c = true := by simp [isWordChar, h]
theorem alpha_word {c : Char} (h : c.isAlpha = true) : isWordChar c = true := by simp [isWordChar, h]
theorem mark_word {c : Char} (h : isMark c = true) : isWordChar c = true := by simp [isWordChar, h]

/-! ### Names -/

theorem IsName.head {w} (h : IsName w) : ∃ c r, w = c :: r ∧ c.isDigit = false ∧ isWordChar c = true := by
  obtain ⟨u, a, v, rfl, hu, ha, hv⟩ := h
  cases u with
  | nil => exact ⟨a, v, rfl, alpha_digit ha, alpha_word ha⟩
  | cons c u => exact ⟨c, u ++ a :: v, rfl, mark_digit (hu c (by simp)), mark_word (hu c (by simp))⟩

theorem IsName.word {w} (h : IsName w) : ∀ c ∈ w, isWordChar c = true := by
  obtain ⟨u, a, v, rfl, hu, ha, hv⟩ := h
  intro c hc
  simp only [List.mem_append, List.mem_cons] at hc
  rcases hc with hc | rfl | hc
  · exact mark_word (hu c hc)
  · exact alpha_word ha
  · exact hv c hc

theorem IsName.letter {w} (h : IsName w) : ∃ c ∈ w, c.isAlpha = true := by
  obtain ⟨u, a, v, rfl, hu, ha, hv⟩ := h
  exact ⟨a, by simp, ha⟩

theorem nameLen_name : ∀ {cs n}, nameLen cs = some n → n ≤ cs.length ∧ IsName (cs.take n)
  | [], n, h => by simp [nameLen] at h
  | c :: cs, n, h => by
    unfold nameLen at h
    split at h
    · rename_i hm
      obtain ⟨m, hm', rfl⟩ := Option.map_eq_some_iff.1 h
      obtain ⟨h1, u, a, v, e, hu, ha, hv⟩ := nameLen_name hm'
      refine ⟨by simpa using h1, c :: u, a, v, by simp [e], ?_, ha, hv⟩
      intro d hd
      rcases List.mem_cons.1 hd with rfl | hd
      · exact hm
      · exact hu d hd
    · split at h
      · rename_i hm ha
        cases h
        have hp := List.takeWhile_prefix (l := cs) isWordChar
        refine ⟨by have := hp.length_le; simp; omega, [], c, cs.takeWhile isWordChar, ?_, by simp, ha, ?_⟩
        · rw [Nat.add_comm, List.take_succ_cons]
          simp only [List.nil_append, List.cons.injEq, true_and]
          exact (List.prefix_iff_eq_take.1 hp).symm
        · intro d hd
          exact List.mem_takeWhile_imp hd
      · cases h

theorem prefix_takeWhile {α} {q : α → Bool} {w cs : List α} (h : w <+: cs) (hw : ∀ c ∈ w, q c = true) : w.length ≤ (cs.takeWhile q).length := by
  obtain ⟨r, rfl⟩ := h
  rw [List.takeWhile_append_of_pos hw]
  simp

theorem name_nameLen : ∀ {w cs}, IsName w → w <+: cs → ∃ n, nameLen cs = some n ∧ w.length ≤ n := by
  rintro w cs ⟨u, a, v, rfl, hu, ha, hv⟩ hp
  induction u generalizing cs with
  | nil =>
    obtain ⟨r, rfl⟩ := hp
    have hm : isMark a = false := by
      by_contra hm
      rcases mark_or (by simpa using hm) with rfl | rfl <;> revert ha <;> decide
    refine ⟨1 + ((v ++ r).takeWhile isWordChar).length, by simp [nameLen, hm, ha], ?_⟩
    have := prefix_takeWhile (List.prefix_append v r) hv
    simp
    omega
  | cons c u ih =>
    obtain ⟨r, rfl⟩ := hp
    obtain ⟨n, h1, h2⟩ := ih (fun d hd => hu d (List.mem_cons_of_mem _ hd)) (List.prefix_append _ r)
    have hm := hu c (by simp)
    refine ⟨n + 1, by simp only [List.cons_append, nameLen, hm, if_true]; rw [h1]; rfl, by simpa using h2⟩

/-! ### Spellings -/

theorem spells_cases {w t} (h : Spells w t) :
    (∃ s, sign t = some s ∧ w = s.toList) ∨ (IsName w ∧ (∀ k, w ≠ (kwText k).toList) ∧ t = .id (String.ofList w)) ∨
    (w ≠ [] ∧ (∀ c ∈ w, c.isDigit = true) ∧ t = .num (Nat.ofDigits 10 (w.reverse.map fun c => c.toNat - '0'.toNat))) ∨
    (∃ d, w = '0' :: 'x' :: d ∧ d ≠ [] ∧ (∀ c ∈ d, isHex c = true) ∧ t = .hex (Nat.ofDigits 16 (d.reverse.map hexDigit))) ∨
    (∃ d, w = '"' :: (d ++ ['"']) ∧ '"' ∉ d ∧ '\n' ∉ d ∧ t = .str (String.ofList d)) := by
  cases h with
  | fixed h => exact .inl ⟨_, h, rfl⟩
  | id h1 h2 => exact .inr (.inl ⟨h1, h2, rfl⟩)
  | num h1 h2 => exact .inr (.inr (.inl ⟨h1, h2, rfl⟩))
  | hex h1 h2 => exact .inr (.inr (.inr (.inl ⟨_, rfl, h1, h2, rfl⟩)))
  | str h1 h2 => exact .inr (.inr (.inr (.inr ⟨_, rfl, h1, h2, rfl⟩)))

/-- The kind of a spelling can be told from its characters. -/
def kindOf (w : List Char) : Nat :=
  if w.head? = some '"' then 4
  else if (w.head?.any Char.isDigit) then (if w.all Char.isDigit then 2 else 3)
  else 0

theorem kind_sign {t s} (h : sign t = some s) : kindOf s.toList = 0 := by
  obtain ⟨h1, h2, _⟩ := sign_chars h
  generalize s.toList = w at *
  cases w with
  | nil => exact absurd rfl h1
  | cons c w => simp [kindOf, (h2 c (by simp)).1, (h2 c (by simp)).2.1]

theorem kind_name {w} (h : IsName w) : kindOf w = 0 := by
  obtain ⟨c, r, rfl, h1, h2⟩ := h.head
  simp [kindOf, h1, word_quote h2]

theorem kind_num {w : List Char} (h : w ≠ []) (h' : ∀ c ∈ w, c.isDigit = true) : kindOf w = 2 := by
  cases w with
  | nil => exact absurd rfl h
  | cons c w =>
    have hc := h' c (by simp)
    have hq : c ≠ '"' := word_quote (digit_word hc)
    have hall : (c :: w).all Char.isDigit = true := List.all_eq_true.2 h'
    simp only [kindOf, List.head?_cons, Option.some.injEq, hq, if_false, Option.any_some, hc, if_true, hall]

theorem kind_hex (d : List Char) : kindOf ('0' :: 'x' :: d) = 3 := by
  have h0 : ('0'.isDigit) = true := rfl
  have hx : ('x'.isDigit) = false := rfl
  simp [kindOf, h0, hx]

theorem kind_str (d : List Char) : kindOf ('"' :: d) = 4 := rfl

theorem spells_inj {w t t'} (h : Spells w t) (h' : Spells w t') : t = t' := by
  have mix : ∀ {t s w}, sign t = some s → w = s.toList → IsName w → (∀ k, w ≠ (kwText k).toList) → False := by
    rintro t s w h1 rfl h2 h3
    obtain ⟨k, rfl⟩ := (sign_chars h1).2.2.1 h2.letter
    simp only [sign, Option.some.injEq] at h1
    exact h3 k (by rw [h1])
  rcases spells_cases h with ⟨s, h1, h2⟩ | ⟨h1, h2, h3⟩ | ⟨h1, h2, h3⟩ | ⟨d, h0, h1, h2, h3⟩ | ⟨d, h0, h1, h2, h3⟩ <;>
  rcases spells_cases h' with ⟨s', g1, g2⟩ | ⟨g1, g2, g3⟩ | ⟨g1, g2, g3⟩ | ⟨d', g0, g1, g2, g3⟩ | ⟨d', g0, g1, g2, g3⟩
  · have e : s = s' := String.toList_inj.1 (h2.symm.trans g2)
    subst e
    exact sign_inj h1 g1
  · exact (mix h1 h2 g1 g2).elim
  · have a := kind_sign h1; rw [← h2, kind_num g1 g2] at a; cases a
  · have a := kind_sign h1; rw [← h2, g0, kind_hex] at a; cases a
  · have a := kind_sign h1; rw [← h2, g0, kind_str] at a; cases a
  · exact (mix g1 g2 h1 h2).elim
  · rw [h3, g3]
  · have a := kind_name h1; rw [kind_num g1 g2] at a; cases a
  · have a := kind_name h1; rw [g0, kind_hex] at a; cases a
  · have a := kind_name h1; rw [g0, kind_str] at a; cases a
  · have a := kind_sign g1; rw [← g2, kind_num h1 h2] at a; cases a
  · have a := kind_name g1; rw [kind_num h1 h2] at a; cases a
  · rw [h3, g3]
  · have a := kind_num h1 h2; rw [g0, kind_hex] at a; cases a
  · have a := kind_num h1 h2; rw [g0, kind_str] at a; cases a
  · have a := kind_sign g1; rw [← g2, h0, kind_hex] at a; cases a
  · have a := kind_name g1; rw [h0, kind_hex] at a; cases a
  · have a := kind_num g1 g2; rw [h0, kind_hex] at a; cases a
  · rw [h0] at g0; cases g0; rw [h3, g3]
  · rw [h0] at g0; cases g0
  · have a := kind_sign g1; rw [← g2, h0, kind_str] at a; cases a
  · have a := kind_name g1; rw [h0, kind_str] at a; cases a
  · have a := kind_num g1 g2; rw [h0, kind_str] at a; cases a
  · rw [h0] at g0; cases g0
  · rw [h0] at g0
    have : d = d' := by simpa using g0
    rw [h3, g3, this]

theorem spells_head {w t} (h : Spells w t) : ∃ c r, w = c :: r ∧ isSpace c = false := by
  rcases spells_cases h with ⟨s, h1, h2⟩ | ⟨h1, h2, h3⟩ | ⟨h1, h2, h3⟩ | ⟨d, h0, h1, h2, h3⟩ | ⟨d, h0, h1, h2, h3⟩
  · obtain ⟨g1, g2, _⟩ := sign_chars h1
    rw [← h2] at g1 g2
    cases w with
    | nil => exact absurd rfl g1
    | cons c r => exact ⟨c, r, rfl, (g2 c (by simp)).2.2⟩
  · obtain ⟨c, r, e, g1, g2⟩ := h1.head
    exact ⟨c, r, e, word_space g2⟩
  · cases w with
    | nil => exact absurd rfl h1
    | cons c r => exact ⟨c, r, rfl, word_space (digit_word (h2 c (by simp)))⟩
  · exact ⟨_, _, h0, rfl⟩
  · exact ⟨_, _, h0, rfl⟩

/-! ### The longest -/

theorem best_none {l} : best l = none ↔ l = [] := by
  cases l with
  | nil => simp [best]
  | cons x l =>
    simp only [best, reduceCtorEq, iff_false]
    split
    · simp
    · split <;> simp

theorem best_mem : ∀ {l x}, best l = some x → x ∈ l ∧ ∀ y ∈ l, y.1 ≤ x.1
  | [], x, h => by simp [best] at h
  | z :: l, x, h => by
    unfold best at h
    split at h
    · rename_i hn
      cases h
      rw [best_none] at hn
      subst hn
      simp
    · rename_i y hy
      obtain ⟨h1, h2⟩ := best_mem hy
      split at h <;> cases h
      · refine ⟨by simp, fun w hw => ?_⟩
        rcases List.mem_cons.1 hw with rfl | hw
        · exact le_refl _
        · have := h2 w hw; omega
      · refine ⟨by simp [h1], fun w hw => ?_⟩
        rcases List.mem_cons.1 hw with rfl | hw
        · omega
        · exact h2 w hw

theorem best_append {l l' x} (h : best (l ++ l') = some x) : x ∈ l ∨ (x ∈ l' ∧ ∀ y ∈ l, y.1 < x.1) := by
  induction l generalizing x with
  | nil => exact .inr ⟨(best_mem h).1, by simp⟩
  | cons z l ih =>
    simp only [List.cons_append, best] at h
    split at h
    · cases h; exact .inl (by simp)
    · rename_i y hy
      split at h <;> cases h
      · exact .inl (by simp)
      · rcases ih hy with h' | ⟨h1, h2⟩
        · exact .inl (by simp [h'])
        · refine .inr ⟨h1, fun w hw => ?_⟩
          rcases List.mem_cons.1 hw with rfl | hw
          · omega
          · exact h2 w hw

/-! ### What matches -/

/-- The literals that match. -/
def lits (cs : List Char) : List (Nat × Item) :=
  literals.filterMap (fun l => if l.1.toList.isPrefixOf cs then some (l.1.toList.length, .tok l.2) else none)

theorem mem_lits {cs x} (h : x ∈ lits cs) : ∃ s t, sign t = some s ∧ s.toList <+: cs ∧ x = (s.toList.length, .tok t) := by
  simp only [lits, List.mem_filterMap] at h
  obtain ⟨⟨s, t⟩, h1, h2⟩ := h
  split at h2
  · rename_i hp
    cases h2
    exact ⟨s, t, lit_sign h1, List.isPrefixOf_iff_prefix.1 hp, rfl⟩
  · cases h2

theorem lits_mem {cs s t} (h : sign t = some s) (hp : s.toList <+: cs) : (s.toList.length, .tok t) ∈ lits cs := by
  simp only [lits, List.mem_filterMap]
  exact ⟨(s, t), sign_lit h, by simp [List.isPrefixOf_iff_prefix.2 hp]⟩

theorem foldl_digits (b : Nat) (g : Char → Nat) : ∀ (w : List Char), value b g w = Nat.ofDigits b (w.reverse.map g) := by
  intro w
  unfold value
  induction w using List.reverseRecOn with
  | nil => simp
  | append_singleton w c ih =>
    simp only [List.foldl_append, List.foldl_cons, List.foldl_nil, ih, List.reverse_append, List.reverse_cons, List.reverse_nil, List.nil_append,
      List.singleton_append, List.map_cons, Nat.ofDigits_cons]
    simp
    omega

/-- What each match is. -/
def Sound (cs : List Char) (n : Nat) : Item → Prop
  | .tok t => Spells (cs.take n) t ∨ (IsName (cs.take n) ∧ t = .id (String.ofList (cs.take n)))
  | .space => 0 < n ∧ ∀ c ∈ cs.take n, isSpace c = true
  | .panic => cs.take n = ['0', 'x']

theorem takeWhile_take {α} (q : α → Bool) (cs : List α) : cs.take (cs.takeWhile q).length = cs.takeWhile q :=
  (List.prefix_iff_eq_take.1 (List.takeWhile_prefix q)).symm

theorem pattern_sound {cs n i} (h : (n, i) ∈ patterns cs) : n ≤ cs.length ∧ Sound cs n i := by
  unfold patterns at h
  simp only [List.mem_append] at h
  rcases h with (((h | h) | h) | h) | h
  · split at h
    · rename_i m hm
      simp only [List.mem_singleton, Prod.mk.injEq] at h
      obtain ⟨rfl, rfl⟩ := h
      obtain ⟨h1, h2⟩ := nameLen_name hm
      exact ⟨h1, .inr ⟨h2, rfl⟩⟩
    · cases h
  · split at h
    · cases h
    · rename_i hne
      simp only [List.mem_singleton, Prod.mk.injEq] at h
      obtain ⟨rfl, rfl⟩ := h
      have hp := List.takeWhile_prefix (l := cs) Char.isDigit
      refine ⟨hp.length_le, .inl ?_⟩
      rw [takeWhile_take, foldl_digits]
      exact Spells.num (by simpa using hne) (fun c hc => List.mem_takeWhile_imp hc)
  · split at h
    · rename_i r
      have hp := (List.takeWhile_prefix (l := r) isHex).length_le
      split at h
      · simp only [List.mem_singleton, Prod.mk.injEq] at h
        obtain ⟨rfl, rfl⟩ := h
        exact ⟨by simp, rfl⟩
      · rename_i hne
        simp only [List.mem_singleton, Prod.mk.injEq] at h
        obtain ⟨rfl, rfl⟩ := h
        refine ⟨by simp; omega, .inl ?_⟩
        rw [Nat.add_comm, List.take_succ_cons, List.take_succ_cons, takeWhile_take, foldl_digits]
        exact Spells.hex (by simpa using hne) (fun c hc => List.mem_takeWhile_imp hc)
    · cases h
  · split at h
    · rename_i r
      split at h
      · rename_i x hd
        simp only [List.mem_singleton, Prod.mk.injEq] at h
        obtain ⟨rfl, rfl⟩ := h
        have e := List.takeWhile_append_dropWhile (p := fun c => c != '"' && c != '\n') (l := r)
        rw [hd] at e
        generalize hs : r.takeWhile (fun c => c != '"' && c != '\n') = s at *
        have ha : ∀ c ∈ s, (c != '"' && c != '\n') = true := fun c hc => by
          rw [← hs] at hc
          exact List.mem_takeWhile_imp (p := fun c => c != '"' && c != '\n') hc
        subst e
        refine ⟨by simp; omega, .inl ?_⟩
        have : ('"' :: (s ++ '"' :: x)).take (2 + s.length) = '"' :: s ++ ['"'] := by
          rw [show 2 + s.length = (s.length + 1) + 1 by omega, List.take_succ_cons]
          simp [List.take_append, List.take_of_length_le (show s.length ≤ s.length + 1 by omega)]
        rw [this]
        exact Spells.str (fun hc => by simpa using ha _ hc) (fun hc => by simpa using ha _ hc)
      · cases h
    · cases h
  · split at h
    · cases h
    · rename_i hne
      simp only [List.mem_singleton, Prod.mk.injEq] at h
      obtain ⟨rfl, rfl⟩ := h
      have hp := List.takeWhile_prefix (l := cs) isSpace
      refine ⟨hp.length_le, ?_, ?_⟩
      · exact List.length_pos_iff.2 (by simpa using hne)
      · rw [takeWhile_take]
        exact fun c hc => List.mem_takeWhile_imp hc

theorem pattern_name {cs n} (h : nameLen cs = some n) : (n, .tok (.id (String.ofList (cs.take n)))) ∈ patterns cs := by
  simp [patterns, h]

theorem found {cs w} (hp : w <+: cs) (h : Lexeme w) : ∃ x ∈ candidates cs, w.length ≤ x.1 := by
  have inP : ∀ {x}, x ∈ patterns cs → w.length ≤ x.1 → ∃ x ∈ candidates cs, w.length ≤ x.1 := fun h1 h2 =>
    ⟨_, List.mem_append_right _ h1, h2⟩
  have hexa : ∀ d, w = '0' :: 'x' :: d → (∀ c ∈ d, isHex c = true) → ∃ x ∈ candidates cs, w.length ≤ x.1 := by
    rintro d rfl hd
    obtain ⟨r, rfl⟩ := hp
    have hl := prefix_takeWhile (List.prefix_append d r) hd
    match e : (d ++ r).takeWhile isHex with
    | [] => refine inP (x := (2, .panic)) (by simp [patterns, e]) (by rw [e] at hl; simp at hl ⊢; omega)
    | y :: ys =>
      refine inP (x := (2 + (y :: ys).length, .tok (.hex (value 16 hexDigit (y :: ys))))) (by simp [patterns, e]) (by rw [e] at hl; simp at hl ⊢; omega)
  rcases h with ⟨t, h⟩ | rfl
  · rcases spells_cases h with ⟨s, h1, rfl⟩ | ⟨h1, h2, h3⟩ | ⟨h1, h2, h3⟩ | ⟨d, h0, h1, h2, h3⟩ | ⟨d, rfl, h1, h2, h3⟩
    · exact ⟨_, List.mem_append_left _ (lits_mem h1 hp), le_refl _⟩
    · obtain ⟨n, h4, h5⟩ := name_nameLen h1 hp
      exact inP (pattern_name h4) h5
    · have hl := prefix_takeWhile hp h2
      match e : cs.takeWhile Char.isDigit with
      | [] => rw [e] at hl; exact absurd (List.length_eq_zero_iff.1 (by simpa using hl)) h1
      | y :: ys =>
        exact inP (x := ((y :: ys).length, .tok (.num (value 10 (fun c => c.toNat - 48) (y :: ys))))) (by simp [patterns, e]) (by rw [← e]; exact hl)
    · exact hexa d h0 h2
    · obtain ⟨r, rfl⟩ := hp
      have hq : ∀ c ∈ d, (c != '"' && c != '\n') = true := by
        intro c hc
        simp only [Bool.and_eq_true, bne_iff_ne]
        exact ⟨fun e => h1 (e ▸ hc), fun e => h2 (e ▸ hc)⟩
      have e1 : (d ++ '"' :: r).takeWhile (fun c => c != '"' && c != '\n') = d := by
        rw [List.takeWhile_append_of_pos hq]; simp
      have e2 : (d ++ '"' :: r).dropWhile (fun c => c != '"' && c != '\n') = '"' :: r := by
        rw [List.dropWhile_append_of_pos hq]; simp
      refine inP (x := (2 + d.length, .tok (.str (String.ofList d)))) (by simp [patterns, e1, e2]) (by simp; omega)
  · exact hexa [] rfl (by simp)

/-- What is taken. -/
def Taken (cs : List Char) (n : Nat) : Item → Prop
  | .tok t => Spells (cs.take n) t
  | .space => 0 < n ∧ ∀ c ∈ cs.take n, isSpace c = true
  | .panic => cs.take n = ['0', 'x']

/-- What the tokenizer takes at a place: the longest. -/
theorem best_sound {cs n i} (h : best (candidates cs) = some (n, i)) :
    n ≤ cs.length ∧ (∀ w, w <+: cs → Lexeme w → w.length ≤ n) ∧ Taken cs n i := by
  have hmax : ∀ w, w <+: cs → Lexeme w → w.length ≤ n := by
    intro w hp hl
    obtain ⟨x, hx, hxl⟩ := found hp hl
    exact le_trans hxl ((best_mem h).2 x hx)
  rcases best_append h with h1 | ⟨h1, h2⟩
  · obtain ⟨s, t, g1, g2, g3⟩ := mem_lits h1
    cases g3
    refine ⟨g2.length_le, hmax, ?_⟩
    show Spells _ _
    rw [← List.prefix_iff_eq_take.1 g2]
    exact Spells.fixed g1
  · obtain ⟨g1, g2⟩ := pattern_sound h1
    refine ⟨g1, hmax, ?_⟩
    match i, g2 with
    | .tok t, .inl g2 => exact g2
    | .tok t, .inr ⟨g2, g3⟩ =>
      subst g3
      refine Spells.id g2 fun k hk => ?_
      have := h2 _ (lits_mem (cs := cs) (t := .kw k) (s := kwText k) rfl (hk ▸ List.take_prefix n cs))
      rw [← hk, List.length_take] at this
      simp only at this
      omega
    | .space, g2 => exact g2
    | .panic, g2 => exact g2

theorem best_space {c cs} (h : isSpace c = true) : ∃ x, best (candidates (c :: cs)) = some x := by
  cases hb : best (candidates (c :: cs)) with
  | some x => exact ⟨x, rfl⟩
  | none =>
    rw [best_none] at hb
    have : ((c :: cs).takeWhile isSpace).length ≠ 0 := by simp [h]
    have hm : (((c :: cs).takeWhile isSpace).length, Item.space) ∈ patterns (c :: cs) := by
      simp [patterns, h]
    have : (((c :: cs).takeWhile isSpace).length, Item.space) ∈ candidates (c :: cs) := List.mem_append_right _ hm
    rw [hb] at this
    cases this

/-! ### The whole text -/

theorem cut_space {c cs ts} (hc : isSpace c = true) (h : Cut (c :: cs) ts) : Cut cs ts := by
  generalize e : c :: cs = l at h
  cases h with
  | nil => cases e
  | space h1 h2 => cases e; exact h2
  | tok h1 h2 h3 =>
    obtain ⟨d, r, rfl, hd⟩ := spells_head h1
    simp only [List.cons_append, List.cons.injEq] at e
    rw [← e.1, hc] at hd
    cases hd

theorem cut_spaces : ∀ {ws cs ts}, (∀ c ∈ ws, isSpace c = true) → (Cut (ws ++ cs) ts ↔ Cut cs ts)
  | [], _, _, _ => Iff.rfl
  | w :: ws, cs, ts, h => by
    have hw := h w (by simp)
    have ih := cut_spaces (cs := cs) (ts := ts) (ws := ws) fun c hc => h c (List.mem_cons_of_mem _ hc)
    exact ⟨fun hc => ih.1 (cut_space hw hc), fun hc => Cut.space hw (ih.2 hc)⟩

theorem run_cut : ∀ {f cs ts}, run f cs = .ok ts → Cut cs ts
  | f, [], ts, h => by
    cases f <;> (simp [run] at h; subst h; exact Cut.nil)
  | 0, c :: cs, ts, h => by simp [run] at h
  | f + 1, c :: cs, ts, h => by
    unfold run at h
    split at h
    · cases h
    · cases h
    · rename_i n hb
      obtain ⟨h1, h2, h3, h4⟩ := best_sound hb
      have := run_cut h
      rw [← List.take_append_drop n (c :: cs), cut_spaces h4]
      exact this
    · rename_i n t hb
      obtain ⟨h1, h2, h3⟩ := best_sound hb
      cases hr : run f ((c :: cs).drop n) with
      | error e => rw [hr] at h; cases h
      | ok us =>
        rw [hr] at h
        simp only [Except.map, Except.ok.injEq] at h
        subst h
        have h4 := run_cut hr
        have e := List.take_append_drop n (c :: cs)
        rw [← e]
        refine Cut.tok h3 (fun w' hp hl => ?_) h4
        rw [e] at hp
        rw [List.length_take]
        have := h2 w' hp hl
        have := hp.length_le
        omega

theorem cut_run : ∀ {f cs ts}, cs.length ≤ f → Cut cs ts → run f cs = .ok ts
  | f, [], ts, hf, h => by
    have : ts = [] := by
      generalize e : ([] : List Char) = l at h
      cases h with
      | nil => rfl
      | space => cases e
      | tok h1 _ _ =>
        obtain ⟨d, r, rfl, _⟩ := spells_head h1
        cases e
    subst this
    cases f <;> rfl
  | 0, c :: cs, ts, hf, h => by simp at hf
  | f + 1, c :: cs, ts, hf, h => by
    unfold run
    by_cases hc : isSpace c = true
    · obtain ⟨⟨n, i⟩, hb⟩ := best_space (cs := cs) hc
      rw [hb]
      obtain ⟨h1, h2, h3⟩ := best_sound hb
      cases i with
      | tok t =>
        obtain ⟨d, r, e, hd⟩ := spells_head h3
        cases n with
        | zero => simp at e
        | succ n =>
          simp only [List.take_succ_cons, List.cons.injEq] at e
          rw [← e.1, hc] at hd
          cases hd
      | panic =>
        cases n with
        | zero => simp [Taken] at h3
        | succ n =>
          simp only [Taken, List.take_succ_cons, List.cons.injEq] at h3
          rw [h3.1] at hc
          cases hc
      | space =>
        have hn := h3.1
        simp only
        have e := List.take_append_drop n (c :: cs)
        refine cut_run (by simp only [List.length_drop, List.length_cons] at hf ⊢; omega) ?_
        rw [← e, cut_spaces h3.2] at h
        exact h
    · generalize e : c :: cs = l at h
      cases h with
      | nil => cases e
      | space h1 h2 => cases e; exact absurd h1 hc
      | @tok w r t us h1 h2 h3 =>
        obtain ⟨x, hx, hxl⟩ := found (List.prefix_append w r) (.inl ⟨t, h1⟩)
        cases hb : best (candidates (w ++ r)) with
        | none => rw [best_none] at hb; rw [hb] at hx; cases hx
        | some y =>
          obtain ⟨n, i⟩ := y
          obtain ⟨g1, g2, g3⟩ := best_sound hb
          have ge := g2 w (List.prefix_append w r) (.inl ⟨t, h1⟩)
          cases i with
          | tok t' =>
            simp only [Taken] at g3
            have le := h2 _ (List.take_prefix n _) (.inl ⟨t', g3⟩)
            rw [List.length_take] at le
            have hn : n = w.length := by omega
            subst hn
            have e1 : (w ++ r).take w.length = w := by simp
            have e2 : (w ++ r).drop w.length = r := by simp
            rw [e1] at g3
            obtain ⟨d, q, ew, _⟩ := spells_head h1
            have hlen : r.length ≤ f := by
              have := congrArg List.length e
              simp [ew] at this hf
              omega
            simp only [e2, cut_run hlen h3, spells_inj h1 g3]
            rfl
          | space =>
            have hn := g3.1
            obtain ⟨d, q, ew, hd⟩ := spells_head h1
            have : d ∈ (w ++ r).take n := by
              obtain ⟨m, rfl⟩ : ∃ m, n = m + 1 := ⟨n - 1, by omega⟩
              simp [ew]
            rw [g3.2 d this] at hd
            cases hd
          | panic =>
            simp only [Taken] at g3
            have le := h2 _ (List.take_prefix n _) (.inr g3)
            rw [List.length_take] at le
            have hn : n = w.length := by omega
            subst hn
            rw [List.take_left'] at g3
            · rcases spells_cases h1 with ⟨s, k1, k2⟩ | ⟨k1, k2, k3⟩ | ⟨k1, k2, k3⟩ | ⟨d, k0, k1, k2, k3⟩ | ⟨d, k0, k1, k2, k3⟩
              · have a := kind_sign k1; rw [← k2, g3, kind_hex] at a; cases a
              · have a := kind_name k1; rw [g3, kind_hex] at a; cases a
              · have a := kind_num k1 k2; rw [g3, kind_hex] at a; cases a
              · rw [g3] at k0; cases k0; exact absurd rfl k1
              · rw [g3] at k0; cases k0
            · rfl

theorem lex_iff {cs ts} : lex cs = .ok ts ↔ Cut cs ts := ⟨run_cut, cut_run (le_refl _)⟩

end Verif.Lexer
