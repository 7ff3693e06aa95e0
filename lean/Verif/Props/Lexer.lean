import Verif.LexerRun
import Verif.Props.Preprocess
import Mathlib.Tactic.IntervalCases

/-!
# C87: the tokens of a text

The reference is `Spelled` and `Tokens`: how tokens are spelled, in characters listed here, and that the longest spelling is taken at each
place.  The spellings of words and signs are the table `sign` of `Verif.LexerLemmas`.
-/

set_option linter.unusedSimpArgs false
set_option linter.unusedVariables false

namespace Verif.Props.Lexer

open Verif.Grammar Verif.Lexer

/-- White space, by code points. -/
def Blank (c : Char) : Prop :=
  c.toNat ∈ [9, 10, 11, 12, 13, 32, 0x85, 0xA0, 0x1680, 0x2000, 0x2001, 0x2002, 0x2003, 0x2004, 0x2005, 0x2006, 0x2007, 0x2008, 0x2009, 0x200A,
    0x2028, 0x2029, 0x202F, 0x205F, 0x3000]

/-- A letter of ASCII. -/
def Letter (c : Char) : Prop := c ∈ "abcdefghijklmnopqrstuvwxyzABCDEFGHIJKLMNOPQRSTUVWXYZ".toList

/-- A character of names. -/
def Part (c : Char) : Prop := Letter c ∨ c ∈ "0123456789".toList ∨ c = '$' ∨ c = '_'

/-- A character is the digit `n`. -/
def Digit (c : Char) (n : Nat) : Prop := "0123456789".toList[n]? = some c

/-- A character is the hexadecimal digit `n`. -/
def Hex (c : Char) (n : Nat) : Prop := "0123456789abcdef".toList[n]? = some c ∨ "0123456789ABCDEF".toList[n]? = some c

/-- A name: any number of `$` and `_`, a letter, and then letters, digits, `$` and `_`. -/
def Name (w : List Char) : Prop := ∃ u a v, w = u ++ a :: v ∧ (∀ c ∈ u, c = '$' ∨ c = '_') ∧ Letter a ∧ ∀ c ∈ v, Part c

/-- How a token may be spelled. -/
inductive Spelled : List Char → Tok → Prop where
  | fixed {t s} : sign t = some s → Spelled s.toList t
  | id {w} : Name w → (∀ k, w ≠ (kwText k).toList) → Spelled w (.id (String.ofList w))
  | num {w ds} : w ≠ [] → List.Forall₂ Digit w ds → Spelled w (.num (Nat.ofDigits 10 ds.reverse))
  | hex {w ds} : w ≠ [] → List.Forall₂ Hex w ds → Spelled ('0' :: 'x' :: w) (.hex (Nat.ofDigits 16 ds.reverse))
  | str {w} : '"' ∉ w → '\n' ∉ w → Spelled ('"' :: w ++ ['"']) (.str (String.ofList w))

/-- A text cut into blanks and spellings, each the longest at its place, where `0x` counts as a spelling. -/
inductive Tokens : List Char → List Tok → Prop where
  | nil : Tokens [] []
  | space {c cs ts} : Blank c → Tokens cs ts → Tokens (c :: cs) ts
  | tok {w cs t ts} : Spelled w t → (∀ w', w' <+: w ++ cs → ((∃ t, Spelled w' t) ∨ w' = "0x".toList) → w'.length ≤ w.length) → Tokens cs ts →
      Tokens (w ++ cs) (t :: ts)

/-! ### The characters of the tokenizer are these -/

theorem blank_iff {c : Char} : Blank c ↔ isSpace c = true := by
  simp only [Blank, isSpace, List.mem_cons, List.not_mem_nil, or_false, Bool.or_eq_true, Bool.and_eq_true, decide_eq_true_eq, beq_iff_eq]
  omega

theorem char_of {c d : Char} (h : c.toNat = d.toNat) : c = d := by
  have := congrArg Char.ofNat h
  simpa using this

theorem range_mem {c : Char} {lo hi : Nat} {l : List Char} (h1 : lo ≤ c.toNat) (h2 : c.toNat ≤ hi)
    (h : (List.range' lo (hi + 1 - lo)).all (fun n => l.any fun d => d.toNat == n) = true) : c ∈ l := by
  have := List.all_eq_true.1 h c.toNat (by rw [List.mem_range']; exact ⟨c.toNat - lo, by omega, by omega⟩)
  obtain ⟨d, hd, he⟩ := List.any_eq_true.1 this
  rw [char_of (beq_iff_eq.1 he).symm]
  exact hd

theorem letter_iff {c : Char} : Letter c ↔ c.isAlpha = true := by
  constructor
  · have h : ("abcdefghijklmnopqrstuvwxyzABCDEFGHIJKLMNOPQRSTUVWXYZ".toList.all Char.isAlpha) = true := by decide +kernel
    exact fun hc => List.all_eq_true.1 h c hc
  · intro hc
    rw [alpha_num] at hc
    rcases hc with hc | hc
    · exact range_mem hc.1 hc.2 (by decide +kernel)
    · exact range_mem hc.1 hc.2 (by decide +kernel)

theorem mark_iff {c : Char} : (c = '$' ∨ c = '_') ↔ isMark c = true := by simp [isMark]

theorem digit_mem {c : Char} : c ∈ "0123456789".toList ↔ c.isDigit = true := by
  constructor
  · have h : ("0123456789".toList.all Char.isDigit) = true := by decide +kernel
    exact fun hc => List.all_eq_true.1 h c hc
  · intro hc
    rw [digit_num] at hc
    exact range_mem hc.1 hc.2 (by decide +kernel)

theorem part_iff {c : Char} : Part c ↔ isWordChar c = true := by
  simp only [Part, isWordChar, Bool.or_eq_true, letter_iff, digit_mem, mark_iff]
  tauto

theorem digit_iff {c : Char} {n : Nat} : Digit c n ↔ c.isDigit = true ∧ n = c.toNat - '0'.toNat := by
  constructor
  · intro h
    refine ⟨digit_mem.1 (List.mem_of_getElem? h), ?_⟩
    have hn : n < 10 := (List.getElem?_eq_some_iff.1 h).1
    unfold Digit at h
    interval_cases n <;> (cases h; rfl)
  · rintro ⟨h, rfl⟩
    obtain ⟨i, hi, rfl⟩ := List.getElem_of_mem (digit_mem.2 h)
    have hi' : i < 10 := hi
    unfold Digit
    interval_cases i <;> rfl

theorem hex_iff {c : Char} {n : Nat} : Hex c n ↔ isHex c = true ∧ n = hexDigit c := by
  constructor
  · intro h
    have hn : n < 16 := by rcases h with h | h <;> exact (List.getElem?_eq_some_iff.1 h).1
    unfold Hex at h
    interval_cases n <;> (rcases h with h | h <;> cases h <;> exact ⟨by decide, by decide⟩)
  · rintro ⟨h, rfl⟩
    have hm : c ∈ "0123456789abcdefABCDEF".toList := by
      simp only [isHex, Bool.or_eq_true, Bool.and_eq_true, decide_eq_true_eq, digit_num, Char.le_def, UInt32.le_iff_toNat_le] at h
      rcases h with (h | h) | h
      · exact range_mem (lo := 48) (hi := 57) h.1 h.2 (by decide +kernel)
      · exact range_mem (lo := 65) (hi := 70) h.1 h.2 (by decide +kernel)
      · exact range_mem (lo := 97) (hi := 102) h.1 h.2 (by decide +kernel)
    obtain ⟨i, hi, rfl⟩ := List.getElem_of_mem hm
    have hi' : i < 22 := hi
    unfold Hex
    interval_cases i <;> first | exact Or.inl rfl | exact Or.inr rfl

theorem name_iff {w : List Char} : Name w ↔ IsName w := by
  simp only [Name, IsName, mark_iff, letter_iff, part_iff]

theorem forall₂_fun {α β} {R : α → β → Prop} {q : α → Prop} {f : α → β} (h : ∀ a b, R a b ↔ q a ∧ b = f a) (l : List α) (m : List β) :
    List.Forall₂ R l m ↔ (∀ a ∈ l, q a) ∧ m = l.map f := by
  induction l generalizing m with
  | nil =>
    cases m with
    | nil => simp
    | cons b m => exact ⟨fun h => (nomatch h), fun h => (nomatch h.2)⟩
  | cons a l ih =>
    cases m with
    | nil => exact ⟨fun h => (nomatch h), fun h => (nomatch h.2)⟩
    | cons b m =>
      rw [List.forall₂_cons, ih, h]
      simp only [List.mem_cons, forall_eq_or_imp, List.map_cons, List.cons.injEq]
      tauto

theorem spelled_iff {w : List Char} {t : Tok} : Spelled w t ↔ Spells w t := by
  constructor
  · intro h
    cases h with
    | fixed h => exact .fixed h
    | id h h' => exact .id (name_iff.1 h) h'
    | num h h' =>
      obtain ⟨h1, rfl⟩ := (forall₂_fun (fun c n => @digit_iff c n) _ _).1 h'
      rw [← List.map_reverse]
      exact .num h h1
    | hex h h' =>
      obtain ⟨h1, rfl⟩ := (forall₂_fun (fun c n => @hex_iff c n) _ _).1 h'
      rw [← List.map_reverse]
      exact .hex h h1
    | str h h' => exact .str h h'
  · intro h
    cases h with
    | fixed h => exact .fixed h
    | id h h' => exact .id (name_iff.2 h) h'
    | num h h' =>
      rw [List.map_reverse]
      exact .num h ((forall₂_fun (fun c n => @digit_iff c n) _ _).2 ⟨h', rfl⟩)
    | hex h h' =>
      rw [List.map_reverse]
      exact .hex h ((forall₂_fun (fun c n => @hex_iff c n) _ _).2 ⟨h', rfl⟩)
    | str h h' => exact .str h h'

theorem tokens_iff {cs : List Char} {ts : List Tok} : Tokens cs ts ↔ Cut cs ts := by
  have hl : ∀ w, ((∃ t, Spelled w t) ∨ w = "0x".toList) ↔ Lexeme w := by
    intro w
    simp only [spelled_iff]
    rfl
  constructor
  · intro h
    induction h with
    | nil => exact .nil
    | space h _ ih => exact .space (blank_iff.1 h) ih
    | tok h h' _ ih => exact .tok (spelled_iff.1 h) (fun w' hp hw => h' w' hp ((hl w').2 hw)) ih
  · intro h
    induction h with
    | nil => exact .nil
    | space h _ ih => exact .space (blank_iff.2 h) ih
    | tok h h' _ ih => exact .tok (spelled_iff.2 h) (fun w' hp hw => h' w' hp ((hl w').1 hw)) ih

/-- **C87.** The tokens of a text are those of its cut into blanks and spellings, each the longest at its place; there is at most one such cut, and
a text that has none is refused or makes the parser panic. -/
theorem C87_longest (cs : List Char) : (∀ ts, lex cs = .ok ts ↔ Tokens cs ts) ∧ ∀ ts us, Tokens cs ts → Tokens cs us → ts = us := by
  simp only [tokens_iff]
  refine ⟨fun ts => lex_iff, fun ts us h h' => ?_⟩
  have h1 := lex_iff.2 h
  rw [lex_iff.2 h'] at h1
  cases h1
  rfl

/-! ### Putting texts together -/

/-- A quoted text is cut at its second quote. -/
theorem quoted {w} (h : Lexeme ('"' :: w)) : ∃ d, w = d ++ ['"'] ∧ '"' ∉ d := by
  rcases h with ⟨t, h⟩ | h
  · rcases spells_cases h with ⟨s, k1, k2⟩ | ⟨k1, k2, k3⟩ | ⟨k1, k2, k3⟩ | ⟨d, k0, k1, k2, k3⟩ | ⟨d, k0, k1, k2, k3⟩
    · have a := kind_sign k1; rw [← k2, kind_str] at a; cases a
    · have a := kind_name k1; rw [kind_str] at a; cases a
    · have a := kind_num k1 k2; rw [kind_str] at a; cases a
    · cases k0
    · simp only [List.cons.injEq, true_and] at k0
      exact ⟨d, k0, k1⟩
  · cases h

/-- A character that is in no spelling but quoted texts, unless first. -/
def Foreign (d : Char) : Prop := ∀ c w, Lexeme (c :: w) → d ∈ w → c = '"'

theorem word_lexeme {c w} (h : Lexeme (c :: w)) (hc : isWordChar c = true) : ∀ d ∈ c :: w, isWordChar d = true := by
  have hx : ∀ d, isHex d = true → isWordChar d = true := by
    intro d hd
    simp only [isHex, Bool.or_eq_true, Bool.and_eq_true, decide_eq_true_eq] at hd
    rcases hd with (hd | hd) | hd
    · exact digit_word hd
    · refine alpha_word (alpha_num.2 (.inl ?_))
      have h1 := UInt32.le_iff_toNat_le.1 (Char.le_def.1 hd.1)
      have h2 := UInt32.le_iff_toNat_le.1 (Char.le_def.1 hd.2)
      simp at h1 h2
      omega
    · refine alpha_word (alpha_num.2 (.inr ?_))
      have h1 := UInt32.le_iff_toNat_le.1 (Char.le_def.1 hd.1)
      have h2 := UInt32.le_iff_toNat_le.1 (Char.le_def.1 hd.2)
      simp at h1 h2
      omega
  rcases h with ⟨t, h⟩ | h
  · rcases spells_cases h with ⟨s, k1, k2⟩ | ⟨k1, k2, k3⟩ | ⟨k1, k2, k3⟩ | ⟨d, k0, k1, k2, k3⟩ | ⟨d, k0, k1, k2, k3⟩
    · rw [k2]
      exact (sign_chars k1).2.2.2.2 ⟨c, k2 ▸ List.mem_cons_self, hc⟩
    · exact k1.word
    · exact fun d hd => digit_word (k2 d hd)
    · rw [k0]
      intro e he
      simp only [List.mem_cons] at he
      rcases he with rfl | rfl | he
      · rfl
      · rfl
      · exact hx e (k2 e he)
    · cases k0; cases hc
  · rw [h]; decide

theorem foreign_of {d : Char} (h1 : isWordChar d = false)
    (h2 : signs.all (fun t => match sign t with | some s => !s.toList.tail.contains d | none => true) = true) : Foreign d := by
  intro c w h hd
  have nw : isWordChar c = true → c = '"' := fun hc => by
    rw [word_lexeme h hc d (List.mem_cons_of_mem _ hd)] at h1
    cases h1
  rcases h with ⟨t, h⟩ | h
  · rcases spells_cases h with ⟨s, k1, k2⟩ | ⟨k1, k2, k3⟩ | ⟨k1, k2, k3⟩ | ⟨d', k0, k1, k2, k3⟩ | ⟨d', k0, k1, k2, k3⟩
    · have := all_signs (q := fun _ s => !s.tail.contains d) h2 k1
      rw [← k2] at this
      simp [hd] at this
    · exact nw (k1.word c (by simp))
    · exact nw (digit_word (k2 c (by simp)))
    · cases k0; exact nw rfl
    · cases k0; rfl
  · cases h; exact nw rfl

theorem foreign_space {d : Char} (h : isSpace d = true) : Foreign d := by
  refine foreign_of ?_ ?_
  · by_contra hw
    rw [word_space (by simpa using hw)] at h
    cases h
  · rw [List.all_eq_true]
    intro t ht
    split
    · rename_i s hs
      simp only [Bool.not_eq_true', List.contains_eq_mem, decide_eq_false_iff_not]
      intro hd
      have := ((sign_chars hs).2.1 d (List.mem_of_mem_tail hd)).2.2
      rw [h] at this
      cases this
    · rfl

/-- The signs that never are a part of another token. -/
def alone : List (Char × Tok) :=
  [('(', .lpar), (')', .rpar), ('[', .lbr), (']', .rbr), ('{', .lcb), ('}', .rcb), (',', .comma), (';', .semi), (':', .colon), ('?', .quest),
    ('.', .dot), ('~', .tilde)]

theorem alone_sign {c t} (h : (c, t) ∈ alone) : sign t = some (String.singleton c) ∧ Foreign c := by
  have k : alone.all (fun x => sign x.2 == some (String.singleton x.1) && !isWordChar x.1 &&
      signs.all (fun t => match sign t with | some s => !s.toList.tail.contains x.1 | none => true)) = true := by decide +kernel
  have := List.all_eq_true.1 k _ h
  simp only [Bool.and_eq_true, beq_iff_eq, Bool.not_eq_true'] at this
  exact ⟨this.1.1, foreign_of this.1.2 this.2⟩

theorem extend {a ta d r tr} (hd : Foreign d) (h : Cut a ta) (hr : Cut (d :: r) tr) : Cut (a ++ d :: r) (ta ++ tr) := by
  induction h with
  | nil => exact hr
  | space h1 _ ih => exact Cut.space h1 ih
  | @tok w cs t ts h1 h2 h3 ih =>
    rw [List.append_assoc, List.cons_append]
    refine Cut.tok h1 (fun w' hp hl => ?_) ih
    by_cases hlen : w'.length ≤ (w ++ cs).length
    · refine h2 w' (List.prefix_of_prefix_length_le ?_ (List.prefix_append _ (d :: r)) hlen) hl
      rw [List.append_assoc]; exact hp
    · obtain ⟨c, q, ew, _⟩ := spells_head h1
      have hw : w ++ cs ++ [d] <+: w' := by
        refine List.prefix_of_prefix_length_le (l₃ := w ++ (cs ++ d :: r)) ?_ hp (by simp at hlen ⊢; omega)
        exact ⟨r, by simp⟩
      obtain ⟨z, hz⟩ := hw
      subst ew
      rw [← hz] at hl
      have hc := hd c (q ++ cs ++ [d] ++ z) (by simpa using hl) (by simp)
      subst hc
      obtain ⟨u, e1, u1⟩ := quoted (w := q ++ cs ++ [d] ++ z) (by simpa using hl)
      obtain ⟨v, e2, v1⟩ := quoted (w := q) (.inl ⟨t, h1⟩)
      exfalso
      apply u1
      rw [e2] at e1
      have hne : cs ++ [d] ++ z ≠ [] := by simp
      obtain ⟨y, x, e3⟩ := List.eq_nil_or_concat (cs ++ [d] ++ z) |>.resolve_left hne
      have e4 : v ++ ['"'] ++ y ++ [x] = u ++ ['"'] := by
        rw [← e1]
        simp only [List.append_assoc] at e3 ⊢
        rw [e3]
        simp
      have := (List.append_inj' e4 rfl).1
      rw [← this]
      simp

/-- **C87.** Blanks between two texts, and the signs that stand alone, change nothing in the tokens of either text. -/
theorem C87_join (a b : List Char) (ta tb : List Tok) (ha : lex a = .ok ta) (hb : lex b = .ok tb) :
    (∀ ws, ws ≠ [] → (∀ c ∈ ws, Blank c) → lex (a ++ ws ++ b) = .ok (ta ++ tb)) ∧
    (∀ c t, (c, t) ∈ alone → lex (a ++ c :: b) = .ok (ta ++ t :: tb)) := by
  rw [lex_iff] at ha hb
  constructor
  · intro ws hne hs
    simp only [blank_iff] at hs
    rw [lex_iff, List.append_assoc]
    cases ws with
    | nil => exact absurd rfl hne
    | cons w ws => exact extend (foreign_space (hs w (by simp))) ha ((cut_spaces hs).2 hb)
  · intro c t hc
    rw [lex_iff]
    obtain ⟨h1, h2⟩ := alone_sign hc
    refine extend h2 ha ?_
    have hsp : Spells [c] t := by simpa using Spells.fixed h1
    refine Cut.tok (w := [c]) (cs := b) hsp (fun w' hp hl => ?_) hb
    match w', hp with
    | [], _ => simp
    | [_], _ => simp
    | x :: y :: w', hp =>
      exfalso
      obtain ⟨r, hr⟩ := hp
      simp only [List.cons_append, List.nil_append, List.cons.injEq] at hr
      obtain ⟨rfl, hr⟩ := hr
      have k : alone.all (fun z => !isWordChar z.1 && z.1 != '"' &&
        signs.all (fun t => match sign t with | some s => s.toList == [z.1] || s.toList.head? != some z.1 | none => true)) = true := by decide +kernel
      have hk := List.all_eq_true.1 k _ hc
      simp only [Bool.and_eq_true, Bool.not_eq_true', bne_iff_ne] at hk
      have nw : isWordChar x = true → False := fun hw => by rw [hk.1.1] at hw; cases hw
      rcases hl with ⟨t', hl⟩ | hl
      · rcases spells_cases hl with ⟨s, k1, k2⟩ | ⟨k1, k2, k3⟩ | ⟨k1, k2, k3⟩ | ⟨d', k0, k1, k2, k3⟩ | ⟨d', k0, k1, k2, k3⟩
        · have := all_signs (q := fun _ s => s == [x] || s.head? != some x) hk.2 k1
          rw [← k2] at this
          simp at this
        · exact nw (k1.word x (by simp))
        · exact nw (digit_word (k2 x (by simp)))
        · cases k0; exact nw rfl
        · exact hk.1.2 (List.cons.inj k0).1
      · cases hl; exact nw rfl

/-- Spellings with blanks between them. -/
def spaced : List (List Char × List Char) → List Char
  | [] => []
  | (w, ws) :: l => w ++ ws ++ spaced l

/-- **C87.** Tokens written with blanks between them are read back. -/
theorem C87_written (l : List ((List Char × List Char) × Tok)) (h : ∀ x ∈ l, Spelled x.1.1 x.2)
    (hs : ∀ x ∈ l, x.1.2 ≠ [] ∧ ∀ c ∈ x.1.2, Blank c) : lex (spaced (l.map (·.1))) = .ok (l.map (·.2)) := by
  induction l with
  | nil => rfl
  | cons x l ih =>
    have one : lex x.1.1 = .ok [x.2] := by
      rw [lex_iff]
      have := Cut.tok (spelled_iff.1 (h x (by simp))) (cs := []) (fun w' hp _ => by simpa using hp.length_le) Cut.nil
      simpa using this
    have ih' := ih (fun y hy => h y (by simp [hy])) (fun y hy => hs y (by simp [hy]))
    have := (C87_join _ _ _ _ one ih').1 x.1.2 (hs x (by simp)).1 (hs x (by simp)).2
    simpa [spaced] using this

/-- **C87.** A word is the word of the language with these letters if there is one, and a name otherwise, whatever it begins with. -/
theorem C87_words (w : List Char) (h : Name w) :
    (∀ k, w = (kwText k).toList → lex w = .ok [.kw k]) ∧ ((∀ k, w ≠ (kwText k).toList) → lex w = .ok [.id (String.ofList w)]) := by
  have one : ∀ {t}, Spells w t → lex w = .ok [t] := by
    intro t ht
    rw [lex_iff]
    have := Cut.tok ht (cs := []) (fun w' hp _ => by simpa using hp.length_le) Cut.nil
    simpa using this
  exact ⟨fun k hk => one (hk ▸ Spells.fixed rfl), fun hk => one (Spells.id (name_iff.1 h) hk)⟩

/-- **C87.** A sign that is not a word needs no blanks between two operands that are names, words or numbers. -/
theorem C87_signs (a b : List Char) (ta tb t : Tok) (s : String) (ha : Spelled a ta) (hb : Spelled b tb) (ha' : ∀ c ∈ a, Part c)
    (hb' : ∀ c ∈ b, Part c) (ht : sign t = some s) (hs : ∀ c ∈ s.toList, ¬Part c) : lex (a ++ s.toList ++ b) = .ok [ta, t, tb] := by
  simp only [part_iff, Bool.not_eq_true] at ha' hb' hs
  rw [spelled_iff] at ha hb
  rw [lex_iff]
  obtain ⟨c, q, ea, _⟩ := spells_head ha
  obtain ⟨c', q', eb, _⟩ := spells_head hb
  have cb := Cut.tok hb (cs := []) (fun w' hp _ => by simpa using hp.length_le) Cut.nil
  rw [List.append_nil] at cb
  have hs1 := sign_chars ht
  have cs : Cut (s.toList ++ b) [t, tb] := by
    refine Cut.tok (Spells.fixed ht) (fun w' hp hl => ?_) cb
    by_contra hlen
    have hc' : c' ∈ w' := by
      obtain ⟨z, hz⟩ : s.toList ++ [c'] <+: w' :=
        List.prefix_of_prefix_length_le (l₃ := s.toList ++ b) ⟨q', by simp [eb]⟩ hp (by simp; omega)
      rw [← hz]; simp
    have hwc := hb' c' (by simp [eb])
    -- the first character is that of the sign
    obtain ⟨d, r, es⟩ : ∃ d r, s.toList = d :: r := by
      cases e : s.toList with
      | nil => exact absurd e hs1.1
      | cons d r => exact ⟨d, r, rfl⟩
    obtain ⟨x, w2, ew⟩ : ∃ x w2, w' = x :: w2 := by
      cases w' with
      | nil => cases hc'
      | cons x w2 => exact ⟨x, w2, rfl⟩
    subst ew
    obtain ⟨z, hz⟩ := hp
    rw [es] at hz
    simp only [List.cons_append, List.cons.injEq] at hz
    have hd : isWordChar x = false := by rw [hz.1]; exact hs d (by simp [es])
    have hq : x ≠ '"' := by rw [hz.1]; exact (hs1.2.1 d (by simp [es])).2.1
    have nw : isWordChar x = true → False := fun hw => by rw [hd] at hw; cases hw
    rcases hl with ⟨t', hl⟩ | hl
    · rcases spells_cases hl with ⟨s', k1, k2⟩ | ⟨k1, k2, k3⟩ | ⟨k1, k2, k3⟩ | ⟨d', k0, k1, k2, k3⟩ | ⟨d', k0, k1, k2, k3⟩
      · refine nw ((sign_chars k1).2.2.2.2 ⟨c', k2 ▸ hc', hwc⟩ x (k2 ▸ by simp))
      · exact nw (k1.word x (by simp))
      · exact nw (digit_word (k2 x (by simp)))
      · cases k0; exact nw rfl
      · cases k0; exact hq rfl
    · cases hl; exact nw rfl
  rw [List.append_assoc]
  refine Cut.tok ha (fun w' hp hl => ?_) cs
  by_contra hlen
  obtain ⟨d, r, es⟩ : ∃ d r, s.toList = d :: r := by
    cases e : s.toList with
    | nil => exact absurd e hs1.1
    | cons d r => exact ⟨d, r, rfl⟩
  obtain ⟨z, hz⟩ : a ++ [d] <+: w' :=
    List.prefix_of_prefix_length_le (l₃ := a ++ (s.toList ++ b)) ⟨r ++ b, by simp [es]⟩ hp (by simp; omega)
  subst ea
  rw [← hz] at hl
  have := word_lexeme (c := c) (w := q ++ [d] ++ z) (by simpa using hl) (ha' c (by simp)) d (by simp)
  rw [hs d (by simp [es])] at this
  cases this

/-- **C87.** Comments count as blanks: after the removal of comments a text has the tokens of its stretches of code. -/
theorem C87_comments (l : Preprocess.Layout) (hl : l.Ok) (ht : ∀ s, l.tail ≠ .block s) (tk : List (List Tok)) (tz : List Tok)
    (hp : List.Forall₂ (fun x t => lex x.1 = .ok t) l.parts tk) (hz : lex l.last = .ok tz) :
    ∃ o, Verif.Preprocess.preprocess l.text = .ok o ∧ lex o = .ok (tk.flatten ++ tz) := by
  have h := Preprocess.C47_result l hl
  have h' : Verif.Preprocess.preprocess l.text = .ok l.blanked := by
    rw [h]
    split
    · rename_i s e; exact absurd e (ht s)
    · rfl
  refine ⟨_, h', ?_⟩
  have bl : ∀ n, ∀ c ∈ Verif.Preprocess.blanks n, Blank c := by
    intro n c hc
    rw [List.eq_of_mem_replicate hc, blank_iff]
    rfl
  have last : lex (l.last ++ match l.tail with
      | .line s => Verif.Preprocess.blanks (2 + Preprocess.bytes s)
      | _ => []) = .ok tz := by
    split
    · rename_i s e
      have := (C87_join l.last [] tz [] hz rfl).1 (Verif.Preprocess.blanks (2 + Preprocess.bytes s))
        (by simp [Verif.Preprocess.blanks]) (bl _)
      simpa using this
    · simpa using hz
  unfold Preprocess.Layout.blanked
  generalize (l.last ++ match l.tail with
      | .line s => Verif.Preprocess.blanks (2 + Preprocess.bytes s)
      | _ => []) = z at last
  generalize l.parts = ps at hp
  induction hp with
  | nil => simpa using last
  | @cons x t ps tk h1 h2 ih =>
    have hc : x.2.blanked ≠ [] ∧ ∀ c ∈ x.2.blanked, Blank c := by
      cases x.2 with
      | line s =>
        refine ⟨by simp [Preprocess.Comment.blanked], fun c hc => ?_⟩
        rcases List.mem_append.1 hc with hc | hc
        · exact bl _ c hc
        · rw [List.mem_singleton.1 hc, blank_iff]; rfl
      | block s => exact ⟨by simp [Preprocess.Comment.blanked, Verif.Preprocess.blanks], bl _⟩
    have := (C87_join x.1 _ t _ h1 ih).1 x.2.blanked hc.1 hc.2
    simpa using this

/-- **C87 (violated).** `0x` without digits is no refusal but a panic. -/
theorem C87_hex_violated (r : List Char) (h : ∀ c r', r = c :: r' → ¬∃ n, Hex c n) : lex ('0' :: 'x' :: r) = .error .panics := by
  simp only [hex_iff, exists_eq_right_right, exists_and_left, exists_eq, and_true, Bool.not_eq_true] at h
  obtain ⟨x, hx, hxl⟩ := found (cs := '0' :: 'x' :: r) (w := ['0', 'x']) ⟨r, rfl⟩ (.inr rfl)
  unfold lex
  rw [List.length_cons]
  unfold run
  cases hb : best (candidates ('0' :: 'x' :: r)) with
  | none => rw [best_none] at hb; rw [hb] at hx; cases hx
  | some y =>
    obtain ⟨n, i⟩ := y
    obtain ⟨g1, g2, g3⟩ := best_sound hb
    have ge := g2 ['0', 'x'] ⟨r, rfl⟩ (.inr rfl)
    obtain ⟨m, rfl⟩ : ∃ m, n = m + 2 := ⟨n - 2, by simp at ge; omega⟩
    cases i with
    | panic => rfl
    | space =>
      have := g3.2 '0' (by simp)
      cases this
    | tok t =>
      simp only [Taken, List.take_succ_cons] at g3
      rcases spells_cases g3 with ⟨s, k1, k2⟩ | ⟨k1, k2, k3⟩ | ⟨k1, k2, k3⟩ | ⟨d, k0, k1, k2, k3⟩ | ⟨d, k0, k1, k2, k3⟩
      · have a := kind_sign k1; rw [← k2, kind_hex] at a; cases a
      · have a := kind_name k1; rw [kind_hex] at a; cases a
      · have a := kind_num k1 k2; rw [kind_hex] at a; cases a
      · simp only [List.cons.injEq, true_and] at k0
        cases r with
        | nil => simp at k0; exact absurd k0 k1
        | cons c r' =>
          cases m with
          | zero => simp at k0; exact absurd k0 k1
          | succ m =>
            have := k2 c (by rw [← k0]; simp)
            rw [h c r' rfl] at this
            cases this
      · cases k0

/-! ## Cases -/

/-- `inputs` is a name, `input` a word; `_a1` is a name. -/
example : lex "inputs".toList = .ok [.id "inputs"] ∧ lex "input".toList = .ok [.kw .input] ∧ lex "_a1".toList = .ok [.id "_a1"] := by decide +kernel

/-- `a<--b` and `a< --b`. -/
example : lex "a<--b".toList = .ok [.id "a", .assign .sig, .id "b"] ∧ lex "a< --b".toList = .ok [.id "a", .op .lt, .mm, .id "b"] := by decide +kernel

/-- A line of a program, with a hexadecimal number and a text. -/
example : lex "for(var i=0;i<0x1F;i++){log(\"a b\",i);}".toList =
    .ok [.kw .for_, .lpar, .kw .var, .id "i", .assign .var, .num 0, .semi, .id "i", .op .lt, .hex 31, .semi, .id "i", .pp, .rpar, .lcb,
      .kw .log, .lpar, .str "a b", .comma, .id "i", .rpar, .semi, .rcb] := by decide +kernel

/-- Refused: a `#`, a quote that is not closed. -/
example : lex "a # b".toList = .error .refused ∧ lex "\"a".toList = .error .refused ∧ lex "0x;".toList = .error .panics := by decide +kernel

/-- `a/* x */+/**/b` has the tokens of `a`, `+` and `b`. -/
example : ∃ o, Verif.Preprocess.preprocess "a/* x */+/**/b".toList = .ok o ∧ lex o = .ok [.id "a", .op .add, .id "b"] :=
  C87_comments ⟨[("a".toList, .block " x ".toList), ("+".toList, .block [])], "b".toList, .none⟩
    ⟨by
      intro x hx
      simp only [List.mem_cons, List.not_mem_nil, or_false] at hx
      rcases hx with rfl | rfl <;> exact ⟨by simp only [Preprocess.Plain]; decide, by simp only [Preprocess.Comment.Ok]; decide⟩,
      by simp only [Preprocess.Plain]; decide, trivial⟩ (by simp) [[.id "a"], [.op .add]] [.id "b"]
    (.cons (by decide +kernel) (.cons (by decide +kernel) .nil)) (by decide +kernel)

example : lex "x<==y".toList = .ok [.id "x", .assign .con, .id "y"] :=
  C87_signs ['x'] ['y'] (.id "x") (.id "y") (.assign .con) "<=="
    (.id ⟨[], 'x', [], rfl, by simp, by simp [Letter], by simp⟩ (by intro k; cases k <;> decide))
    (.id ⟨[], 'y', [], rfl, by simp, by simp [Letter], by simp⟩ (by intro k; cases k <;> decide))
    (by simp [Part, Letter]) (by simp [Part, Letter]) rfl (by simp [Part, Letter])

/-- `0xfF` is 255. -/
example : Spelled "0xfF".toList (.hex 255) :=
  .hex (w := ['f', 'F']) (ds := [15, 15]) (by simp) (.cons (Or.inl rfl) (.cons (Or.inr rfl) .nil))

end Verif.Props.Lexer
