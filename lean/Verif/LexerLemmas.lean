import Verif.Lexer
import Mathlib.Data.Nat.Digits.Defs

/-!
# Spellings of tokens, and what the tokenizer finds

The reference: how each token is spelled, and the cut of a text into spellings, each the longest at its place.
-/

set_option linter.unusedSimpArgs false
set_option linter.unusedVariables false

namespace Verif.Lexer

open Verif.Grammar

/-- The words of the language. -/
def kwText : Kw → String
  | .parallel => "parallel" | .if_ => "if" | .else_ => "else" | .for_ => "for" | .while_ => "while" | .return_ => "return" | .log => "log"
  | .assert => "assert" | .var => "var" | .component => "component" | .signal => "signal" | .input => "input" | .output => "output"
  | .function => "function" | .template => "template" | .bus => "bus" | .main => "main" | .public_ => "public" | .custom => "custom"
  | .externC => "extern_c" | .pragma => "pragma" | .circom => "circom" | .customTemplates => "custom_templates" | .include => "include"

/-- The infix operators. -/
def opText : Infix → String
  | .mul => "*" | .div => "/" | .add => "+" | .sub => "-" | .pow => "**" | .intDiv => "\\" | .mod => "%" | .shiftL => "<<" | .shiftR => ">>"
  | .le => "<=" | .ge => ">=" | .lt => "<" | .gt => ">" | .eq => "==" | .ne => "!=" | .or => "||" | .and => "&&" | .bitOr => "|"
  | .bitAnd => "&" | .bitXor => "^"

/-- The spelling of a token that has only one. -/
def sign : Tok → Option String
  | .kw k => some (kwText k)
  | .op o => some (opText o)
  | .opEq o => if shortcut o then some (opText o ++ "=") else none
  | .assign .var => some "=" | .assign .sig => some "<--" | .assign .con => some "<==" | .right .sig => some "-->" | .right .con => some "==>"
  | .eqq => some "===" | .bang => some "!" | .tilde => some "~" | .pp => some "++" | .mm => some "--"
  | .lpar => some "(" | .rpar => some ")" | .lbr => some "[" | .rbr => some "]" | .lcb => some "{" | .rcb => some "}"
  | .comma => some "," | .dot => some "." | .semi => some ";" | .quest => some "?" | .colon => some ":" | .under => some "_"
  | _ => none

/-- A name: marks, a letter, and then marks, letters and digits. -/
def IsName (w : List Char) : Prop :=
  ∃ u a v, w = u ++ a :: v ∧ (∀ c ∈ u, isMark c = true) ∧ a.isAlpha = true ∧ ∀ c ∈ v, isWordChar c = true

/-- How a token may be spelled. -/
inductive Spells : List Char → Tok → Prop where
  | fixed {t s} : sign t = some s → Spells s.toList t
  | id {w} : IsName w → (∀ k, w ≠ (kwText k).toList) → Spells w (.id (String.ofList w))
  | num {w} : w ≠ [] → (∀ c ∈ w, c.isDigit = true) → Spells w (.num (Nat.ofDigits 10 (w.reverse.map fun c => c.toNat - '0'.toNat)))
  | hex {w} : w ≠ [] → (∀ c ∈ w, isHex c = true) → Spells ('0' :: 'x' :: w) (.hex (Nat.ofDigits 16 (w.reverse.map hexDigit)))
  | str {w} : '"' ∉ w → '\n' ∉ w → Spells ('"' :: w ++ ['"']) (.str (String.ofList w))

/-- A spelling, or the beginning of a hexadecimal number, which the tokenizer takes for one. -/
def Lexeme (w : List Char) : Prop := (∃ t, Spells w t) ∨ w = ['0', 'x']

/-- A text cut into blanks and spellings, each the longest at its place. -/
inductive Cut : List Char → List Tok → Prop where
  | nil : Cut [] []
  | space {c cs ts} : isSpace c = true → Cut cs ts → Cut (c :: cs) ts
  | tok {w cs t ts} : Spells w t → (∀ w', w' <+: w ++ cs → Lexeme w' → w'.length ≤ w.length) → Cut cs ts → Cut (w ++ cs) (t :: ts)

/-- The tokens with one spelling. -/
def signs : List Tok :=
  [.kw .parallel, .kw .if_, .kw .else_, .kw .for_, .kw .while_, .kw .return_, .kw .log, .kw .assert, .kw .var, .kw .component, .kw .signal, .kw .input,
    .kw .output, .kw .function, .kw .template, .kw .bus, .kw .main, .kw .public_, .kw .custom, .kw .externC, .kw .pragma, .kw .circom,
    .kw .customTemplates, .kw .include, .op .mul, .op .div, .op .add, .op .sub, .op .pow, .op .intDiv, .op .mod, .op .shiftL, .op .shiftR,
    .op .le, .op .ge, .op .lt, .op .gt, .op .eq, .op .ne, .op .or, .op .and, .op .bitOr, .op .bitAnd, .op .bitXor,
    .opEq .mul, .opEq .div, .opEq .add, .opEq .sub, .opEq .pow, .opEq .intDiv, .opEq .mod, .opEq .shiftL, .opEq .shiftR, .opEq .bitOr,
    .opEq .bitAnd, .opEq .bitXor, .assign .var, .assign .sig, .assign .con, .right .sig, .right .con, .eqq, .bang, .tilde, .pp, .mm,
    .lpar, .rpar, .lbr, .rbr, .lcb, .rcb, .comma, .dot, .semi, .quest, .colon, .under]

theorem mem_signs {t : Tok} {s : String} (h : sign t = some s) : t ∈ signs := by
  cases t with
  | kw k => cases k <;> simp [signs]
  | op o => cases o <;> simp [signs]
  | opEq o => cases o <;> simp [sign, shortcut] at h <;> simp [signs]
  | assign a => cases a <;> simp [signs]
  | right a => cases a <;> simp [sign] at h <;> simp [signs]
  | id _ => simp [sign] at h
  | num _ => simp [sign] at h
  | hex _ => simp [sign] at h
  | str _ => simp [sign] at h
  | _ => simp [signs]

/-- Something about every sign, by looking at all. -/
theorem all_signs {q : Tok → List Char → Bool} (h : signs.all (fun t => match sign t with | some s => q t s.toList | none => true) = true) {t s}
    (ht : sign t = some s) : q t s.toList = true := by
  have := List.all_eq_true.1 h t (mem_signs ht)
  simpa [ht] using this

theorem lit_sign {s t} (h : (s, t) ∈ literals) : sign t = some s := by
  have : literals.all (fun l => sign l.2 == some l.1) = true := by decide +kernel
  simpa using List.all_eq_true.1 this _ h

theorem sign_lit {s t} (h : sign t = some s) : (s, t) ∈ literals := by
  have : signs.all (fun t => match sign t with | some s => literals.contains (s, t) | none => true) = true := by decide +kernel
  have := List.all_eq_true.1 this t (mem_signs h)
  simpa [h] using this

theorem sign_inj {t t' s} (h : sign t = some s) (h' : sign t' = some s) : t = t' := by
  have key : signs.all (fun t => signs.all fun t' => t == t' || sign t != sign t') = true := by decide +kernel
  have := List.all_eq_true.1 (List.all_eq_true.1 key t (mem_signs h)) t' (mem_signs h')
  simpa [h, h'] using this

/-- What the signs are like: not empty, without digits, quotes and blanks; those with a letter are words, which are made of characters of
words. -/
theorem sign_chars {t s} (h : sign t = some s) :
    s.toList ≠ [] ∧ (∀ c ∈ s.toList, c.isDigit = false ∧ c ≠ '"' ∧ isSpace c = false) ∧
    ((∃ c ∈ s.toList, c.isAlpha = true) → ∃ k, t = .kw k) ∧ (∀ k, t = .kw k → IsName s.toList) ∧
    ((∃ c ∈ s.toList, isWordChar c = true) → ∀ c ∈ s.toList, isWordChar c = true) := by
  have h1 := all_signs (q := fun _ s => !s.isEmpty) (by decide +kernel) h
  have h2 := all_signs (q := fun _ s => s.all fun c => !c.isDigit && c != '"' && !isSpace c) (by decide +kernel) h
  have h3 := all_signs (q := fun t s => !s.any (·.isAlpha) || match t with | .kw _ => true | _ => false) (by decide +kernel) h
  have h4 := all_signs (q := fun t s => match t with | .kw _ => (s.headD ' ').isAlpha && s.tail.all isWordChar | _ => true) (by decide +kernel) h
  have h5 := all_signs (q := fun t s => !s.any isWordChar || s.all isWordChar) (by decide +kernel) h
  refine ⟨by simpa using h1, by simpa [and_assoc] using h2, ?_, ?_, ?_⟩
  · rintro ⟨c, hc, ha⟩
    cases t <;> simp at h3 <;> first | exact ⟨_, rfl⟩ | (have := h3 c hc; simp_all)
  · rintro k rfl
    generalize s.toList = w at *
    cases w with
    | nil => simp at h1
    | cons a v => exact ⟨[], a, v, rfl, by simp, by simpa using (Bool.and_eq_true_iff.1 h4).1, by simpa using (Bool.and_eq_true_iff.1 h4).2⟩
  · rintro ⟨c, hc, ha⟩ d hd
    simp only [Bool.or_eq_true, Bool.not_eq_true', List.any_eq_false, List.all_eq_true] at h5
    rcases h5 with h5 | h5
    · exact absurd ha (h5 c hc)
    · exact h5 d hd

end Verif.Lexer
