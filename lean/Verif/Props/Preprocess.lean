import Verif.Preprocess

set_option linter.unusedSectionVars false
set_option linter.unusedSimpArgs false
set_option linter.unusedVariables false

/-!
Property C47: removal of comments (`parser/src/parser_logic.rs`).

Specification: a text is a sequence of stretches of code, each followed by a comment, then a last
stretch of code and possibly a comment that is not closed. A line comment goes up to the next newline,
a block comment up to the next `*/`; a stretch of code goes up to the next `//` or `/*`.
-/

namespace Verif.Props.Preprocess

open Verif.Preprocess

/-- Number of bytes of a text. -/
def bytes (s : List Char) : Nat := (s.map Char.utf8Size).sum

/-- A comment that is closed. -/
inductive Comment where
  | line (body : List Char)
  | block (body : List Char)
  deriving DecidableEq

def Comment.text : Comment → List Char
  | .line s => '/' :: '/' :: s ++ ['\n']
  | .block s => '/' :: '*' :: s ++ ['*', '/']

/-- What should remain of a comment: blanks, and the newline after a line comment. -/
def Comment.blanked : Comment → List Char
  | .line s => blanks (2 + bytes s) ++ ['\n']
  | .block s => blanks (4 + bytes s)

/-- The comment is closed by the first newline, or `*/`, after its beginning. -/
def Comment.Ok : Comment → Prop
  | .line s => '\n' ∉ s
  | .block s => ¬ ['*', '/'] <:+: s ++ ['*']

/-- What may follow the last stretch of code. -/
inductive Tail where
  | none
  | line (body : List Char)
  | block (body : List Char)
  deriving DecidableEq

def Tail.text : Tail → List Char
  | .none => []
  | .line s => '/' :: '/' :: s
  | .block s => '/' :: '*' :: s

def Tail.Ok : Tail → Prop
  | .none => True
  | .line s => '\n' ∉ s
  | .block s => ¬ ['*', '/'] <:+: s

/-- No comment begins in the text. -/
def Plain (s : List Char) : Prop := ¬ ['/', '/'] <:+: s ∧ ¬ ['/', '*'] <:+: s

/-- A text cut into code and comments. -/
structure Layout where
  parts : List (List Char × Comment)
  last : List Char
  tail : Tail
  deriving DecidableEq

def Layout.text (l : Layout) : List Char :=
  l.parts.flatMap (fun x => x.1 ++ x.2.text) ++ (l.last ++ l.tail.text)

/-- Every stretch of code ends where the first comment begins. -/
structure Layout.Ok (l : Layout) : Prop where
  parts : ∀ x ∈ l.parts, Plain (x.1 ++ ['/']) ∧ x.2.Ok
  last : if l.tail = .none then Plain l.last else Plain (l.last ++ ['/'])
  tail : l.tail.Ok

/-- The text with all comments blanked. -/
def Layout.blanked (l : Layout) : List Char :=
  l.parts.flatMap (fun x => x.1 ++ x.2.blanked) ++ (l.last ++ match l.tail with
    | .line s => blanks (2 + bytes s)
    | _ => [])

/-! ### Infixes -/

theorem infix_tail {x : List Char} {c : Char} {s : List Char} (h : ¬ x <:+: c :: s) : ¬ x <:+: s :=
  fun hi => h (hi.trans (List.suffix_cons c s).isInfix)

theorem Plain.tail {c : Char} {s : List Char} (h : Plain (c :: s)) : Plain s :=
  ⟨infix_tail h.1, infix_tail h.2⟩

theorem Plain.head {d : Char} {s : List Char} (h : Plain ('/' :: d :: s)) : d ≠ '/' ∧ d ≠ '*' := by
  constructor
  · rintro rfl; exact h.1 ⟨[], s, rfl⟩
  · rintro rfl; exact h.2 ⟨[], s, rfl⟩

theorem infix_cons2 {a b c d : Char} {s : List Char} :
    [a, b] <:+: c :: d :: s ↔ (a = c ∧ b = d) ∨ [a, b] <:+: d :: s := by
  rw [List.infix_cons_iff]
  constructor
  · rintro (h | h)
    · obtain ⟨t, ht⟩ := h
      simp only [List.cons_append, List.nil_append, List.cons.injEq] at ht
      exact .inl ⟨ht.1, ht.2.1⟩
    · exact .inr h
  · rintro (⟨rfl, rfl⟩ | h)
    · exact .inl ⟨s, rfl⟩
    · exact .inr h

theorem infix_single {a b c : Char} : ¬ [a, b] <:+: [c] := by
  intro h
  have := h.length_le
  simp at this

/-! ### The scanner on the pieces -/

theorem blanks_add (m n : Nat) : blanks (m + n) = blanks m ++ blanks n := by
  simp [blanks]

theorem scan_plain : ∀ (s : List Char) (loc bs : Nat), Plain s → scan .code loc bs s = (s, .code, bs)
  | [], _, _, _ => by simp [scan]
  | [c], _, _, _ => by simp [scan]
  | c0 :: c1 :: r, loc, bs, h => by
    rw [scan]
    by_cases hc : c0 = '/'
    · subst hc
      obtain ⟨h1, h2⟩ := h.head
      simp [h1, h2, scan_plain r (loc + 2) bs h.tail.tail]
    · simp [hc, scan_plain (c1 :: r) (loc + 1) bs h.tail]

theorem scan_code : ∀ (s : List Char) (loc bs : Nat) (d : Char) (r : List Char), Plain (s ++ ['/']) →
    scan .code loc bs (s ++ '/' :: d :: r) =
      (s ++ (scan .code (loc + s.length) bs ('/' :: d :: r)).1,
        (scan .code (loc + s.length) bs ('/' :: d :: r)).2)
  | [], _, _, _, _, _ => by simp
  | [c], loc, bs, d, r, h => by
    have hc : c ≠ '/' := by
      rintro rfl
      exact (h.head).1 rfl
    have e : ([c] : List Char) ++ '/' :: d :: r = c :: '/' :: d :: r := rfl
    rw [e]
    conv_lhs => rw [scan]
    simp [hc]
  | c0 :: c1 :: s, loc, bs, d, r, h => by
    have e : (c0 :: c1 :: s) ++ '/' :: d :: r = c0 :: c1 :: (s ++ '/' :: d :: r) := rfl
    rw [e, scan]
    by_cases hc : c0 = '/'
    · subst hc
      obtain ⟨h1, h2⟩ := h.head
      have := scan_code s (loc + 2) bs d r h.tail.tail
      have e2 : loc + ('/' :: c1 :: s).length = loc + 2 + s.length := by simp; omega
      rw [e2]
      simp [h1, h2, this]
    · have := scan_code (c1 :: s) (loc + 1) bs d r h.tail
      have e2 : loc + (c0 :: c1 :: s).length = loc + 1 + (c1 :: s).length := by simp; omega
      have e3 : (c1 :: s) ++ '/' :: d :: r = c1 :: (s ++ '/' :: d :: r) := rfl
      rw [e3] at this
      rw [e2]
      simp [hc, this]

theorem bytes_cons (c : Char) (s : List Char) : bytes (c :: s) = c.utf8Size + bytes s := by simp [bytes]

theorem scan_line (s : List Char) : ∀ (loc bs : Nat) (r : List Char), '\n' ∉ s →
    scan .line loc bs (s ++ '\n' :: r) =
      (blanks (bytes s) ++ '\n' :: (scan .code (loc + s.length + 1) bs r).1,
        (scan .code (loc + s.length + 1) bs r).2) := by
  induction s with
  | nil => intro loc bs r _; simp [scan, blanks, bytes]
  | cons c s ih =>
    intro loc bs r h
    simp only [List.mem_cons, not_or] at h
    have hc : c ≠ '\n' := Ne.symm h.1
    have := ih (loc + 1) bs r h.2
    rw [List.cons_append, scan]
    have e : loc + (c :: s).length + 1 = loc + 1 + s.length + 1 := by simp; omega
    rw [e, bytes_cons, blanks_add]
    simp [hc, this]

theorem scan_line_end (s : List Char) : ∀ (loc bs : Nat), '\n' ∉ s →
    scan .line loc bs s = (blanks (bytes s), .line, bs) := by
  induction s with
  | nil => intro loc bs _; simp [scan, blanks, bytes]
  | cons c s ih =>
    intro loc bs h
    simp only [List.mem_cons, not_or] at h
    have hc : c ≠ '\n' := Ne.symm h.1
    rw [scan, bytes_cons, blanks_add]
    simp [hc, ih (loc + 1) bs h.2]

theorem scan_block (s : List Char) : ∀ (loc bs : Nat) (r : List Char),
    (¬ ['*', '/'] <:+: s ++ ['*'] → scan .block loc bs (s ++ '*' :: '/' :: r) =
      (blanks (2 + bytes s) ++ (scan .code (loc + s.length + 2) bs r).1,
        (scan .code (loc + s.length + 2) bs r).2)) ∧
    (¬ ['*', '/'] <:+: '*' :: (s ++ ['*']) → scan .star loc bs (s ++ '*' :: '/' :: r) =
      (blanks (3 + bytes s) ++ (scan .code (loc + s.length + 2) bs r).1,
        (scan .code (loc + s.length + 2) bs r).2)) := by
  induction s with
  | nil =>
    intro loc bs r
    constructor
    · intro _
      have : loc + ([] : List Char).length + 2 = loc + 1 + 1 := by simp
      rw [this]
      simp [scan, blanks, bytes]
    · intro _
      have : loc + ([] : List Char).length + 2 = loc + 1 + 1 := by simp
      rw [this]
      simp [scan, blanks, bytes]
  | cons c s ih =>
    intro loc bs r
    have e : loc + (c :: s).length + 2 = loc + 1 + s.length + 2 := by simp; omega
    obtain ⟨i1, i2⟩ := ih (loc + 1) bs r
    constructor
    · intro h
      rw [List.cons_append, scan, e]
      by_cases hc : c = '*'
      · subst hc
        rw [if_pos rfl, i2 h, bytes_cons]
        have : 3 + bytes s = 2 + (Char.utf8Size '*' + bytes s) := by
          have : Char.utf8Size '*' = 1 := by decide
          omega
        rw [this]
      · rw [if_neg hc, i1 (infix_tail h), bytes_cons]
        simp only
        rw [← List.append_assoc, ← blanks_add]
        congr 2
        rw [show c.utf8Size + (2 + bytes s) = 2 + (c.utf8Size + bytes s) by omega]
    · intro h
      rw [List.cons_append, scan, e]
      by_cases hc : c = '*'
      · subst hc
        rw [if_pos rfl, i2 (infix_tail h), bytes_cons]
        have : 3 + (Char.utf8Size '*' + bytes s) = (3 + bytes s) + 1 := by
          have : Char.utf8Size '*' = 1 := by decide
          omega
        rw [this]
        simp [blanks, List.replicate_succ]
      · have hd : c ≠ '/' := by
          rintro rfl
          exact h ⟨[], s ++ ['*'], rfl⟩
        rw [if_neg hc, if_neg hd, i1 (infix_tail (infix_tail h)), bytes_cons]
        simp only
        rw [List.cons_append, ← List.append_assoc, ← blanks_add]
        have : 3 + (c.utf8Size + bytes s) = c.utf8Size + (2 + bytes s) + 1 := by omega
        rw [this]
        simp [blanks, List.replicate_succ]

theorem scan_block_end (s : List Char) : ∀ (loc bs : Nat),
    (¬ ['*', '/'] <:+: s → (scan .block loc bs s).2 = (.block, bs)) ∧
    (¬ ['*', '/'] <:+: '*' :: s → (scan .star loc bs s).2 = (.block, bs)) := by
  induction s with
  | nil => intro loc bs; exact ⟨fun _ => rfl, fun _ => rfl⟩
  | cons c s ih =>
    intro loc bs
    obtain ⟨i1, i2⟩ := ih (loc + 1) bs
    constructor
    · intro h
      rw [scan]
      by_cases hc : c = '*'
      · subst hc; rw [if_pos rfl]; exact i2 h
      · rw [if_neg hc]; exact i1 (infix_tail h)
    · intro h
      rw [scan]
      by_cases hc : c = '*'
      · subst hc; rw [if_pos rfl]; exact i2 (infix_tail h)
      · have hd : c ≠ '/' := by
          rintro rfl
          exact h ⟨[], s, rfl⟩
        rw [if_neg hc, if_neg hd]; exact i1 (infix_tail (infix_tail h))

/-! ### The scanner on a whole text -/

theorem blanks_two (n : Nat) : blanks (2 + n) = ' ' :: ' ' :: blanks n := by
  rw [blanks_add]; rfl

theorem scan_comment (c : Comment) (hc : c.Ok) (loc bs : Nat) (r : List Char) :
    ∃ bs', scan .code loc bs (c.text ++ r) =
      (c.blanked ++ (scan .code (loc + c.text.length) bs' r).1, (scan .code (loc + c.text.length) bs' r).2) := by
  cases c with
  | line s =>
    refine ⟨bs, ?_⟩
    simp only [Comment.text, Comment.blanked]
    have e : ('/' :: '/' :: s ++ ['\n']) ++ r = '/' :: '/' :: (s ++ '\n' :: r) := by simp
    have e2 : loc + ('/' :: '/' :: s ++ ['\n']).length = loc + 2 + s.length + 1 := by simp; omega
    rw [e, e2, scan, if_pos rfl, if_pos rfl, scan_line s (loc + 2) bs r hc, blanks_two]
    simp
  | block s =>
    refine ⟨loc + 2, ?_⟩
    simp only [Comment.text, Comment.blanked]
    have e : ('/' :: '*' :: s ++ ['*', '/']) ++ r = '/' :: '*' :: (s ++ '*' :: '/' :: r) := by simp
    have e2 : loc + ('/' :: '*' :: s ++ ['*', '/']).length = loc + 2 + s.length + 2 := by simp; omega
    rw [e, e2, scan, if_pos rfl, if_neg (by decide), if_pos rfl, (scan_block s (loc + 2) (loc + 2) r).1 hc]
    have : 4 + bytes s = 2 + (2 + bytes s) := by omega
    rw [this, blanks_two (2 + bytes s)]
    simp

theorem comment_head (c : Comment) (r : List Char) : ∃ d t, c.text ++ r = '/' :: d :: t := by
  cases c with
  | line s => exact ⟨'/', s ++ ['\n'] ++ r, by simp [Comment.text]⟩
  | block s => exact ⟨'*', s ++ ['*', '/'] ++ r, by simp [Comment.text]⟩

theorem scan_layout (l : Layout) (hl : l.Ok) :
    match l.tail with
    | .block _ => (scan .code 0 0 l.text).2 =
        (.block, (l.parts.flatMap fun x => x.1 ++ x.2.text).length + l.last.length + 2)
    | _ => (scan .code 0 0 l.text).1 = l.blanked ∧ (scan .code 0 0 l.text).2.1 ≠ .block := by
  have key : ∀ (ps : List (List Char × Comment)) (loc bs : Nat) (r : List Char),
      (∀ x ∈ ps, Plain (x.1 ++ ['/']) ∧ x.2.Ok) → ∃ bs',
      scan .code loc bs (ps.flatMap (fun x => x.1 ++ x.2.text) ++ r) =
        (ps.flatMap (fun x => x.1 ++ x.2.blanked) ++
          (scan .code (loc + (ps.flatMap fun x => x.1 ++ x.2.text).length) bs' r).1,
        (scan .code (loc + (ps.flatMap fun x => x.1 ++ x.2.text).length) bs' r).2) := by
    intro ps
    induction ps with
    | nil => intro loc bs r _; exact ⟨bs, by simp⟩
    | cons x ps ih =>
      intro loc bs r h
      obtain ⟨h1, h2⟩ := h x (by simp)
      obtain ⟨s, c⟩ := x
      set rest := ps.flatMap (fun x => x.1 ++ x.2.text) ++ r with hrest
      obtain ⟨bs1, k1⟩ := scan_comment c h2 (loc + s.length) bs rest
      obtain ⟨bs2, k2⟩ := ih (loc + s.length + c.text.length) bs1 r (fun x hx => h x (by simp [hx]))
      refine ⟨bs2, ?_⟩
      obtain ⟨d, t, ht⟩ := comment_head c rest
      have e : (((s, c) :: ps).flatMap (fun x => x.1 ++ x.2.text) ++ r) = s ++ (c.text ++ rest) := by
        simp [hrest]
      have e2 : loc + (((s, c) :: ps).flatMap fun x => x.1 ++ x.2.text).length =
          loc + s.length + c.text.length + (ps.flatMap fun x => x.1 ++ x.2.text).length := by
        simp; omega
      rw [e, e2, ht, scan_code s loc bs d t h1, ← ht, k1]
      simp only [hrest]
      rw [k2]
      simp
  obtain ⟨bs, hb⟩ := key l.parts 0 0 (l.last ++ l.tail.text) hl.parts
  have ht := hl.tail
  have hlast := hl.last
  simp only [Layout.text, Layout.blanked]
  cases htl : l.tail with
  | none =>
    rw [htl] at hb ht hlast
    simp only [Tail.text, List.append_nil] at hb ⊢
    rw [if_pos rfl] at hlast
    rw [hb, scan_plain _ _ _ hlast]
    simp
  | line s =>
    rw [htl] at hb ht hlast
    rw [if_neg (by simp)] at hlast
    simp only [Tail.text] at hb ⊢
    rw [hb, scan_code _ _ _ _ _ hlast]
    conv => enter [1, 1]; rw [scan]
    conv => enter [2]; rw [scan]
    simp only [if_true]
    rw [scan_line_end s _ _ ht, blanks_two]
    simp
  | block s =>
    rw [htl] at hb ht hlast
    rw [if_neg (by simp)] at hlast
    simp only [Tail.text] at hb ⊢
    rw [hb, scan_code _ _ _ _ _ hlast]
    simp only
    rw [scan, if_pos rfl, if_neg (by decide), if_pos rfl]
    simp only
    rw [(scan_block_end s _ _).1 ht]
    simp

/-! ### Property C47 -/

/-- **C47**: for a text cut into code and comments, the result is the text with the comments blanked;
if the last comment is an unclosed block comment an error is reported. -/
theorem C47_result (l : Layout) (hl : l.Ok) :
    preprocess l.text = match l.tail with
      | .block _ => .error ((l.parts.flatMap fun x => x.1 ++ x.2.text).length + l.last.length + 2)
      | _ => .ok l.blanked := by
  have h := scan_layout l hl
  unfold preprocess
  cases htl : l.tail with
  | none => rw [htl] at h; simp only at h ⊢; rw [if_neg h.2, h.1]
  | line s => rw [htl] at h; simp only at h ⊢; rw [if_neg h.2, h.1]
  | block s => rw [htl] at h; simp only at h ⊢; rw [h, if_pos rfl]

theorem first_opener : ∀ s : List Char, Plain s ∨
    ∃ a d b, s = a ++ '/' :: d :: b ∧ (d = '/' ∨ d = '*') ∧ Plain (a ++ ['/'])
  | [] => .inl ⟨by simp, by simp⟩
  | [c] => .inl ⟨infix_single, infix_single⟩
  | c :: d :: s => by
    by_cases hc : c = '/' ∧ (d = '/' ∨ d = '*')
    · obtain ⟨rfl, hd⟩ := hc
      exact .inr ⟨[], d, s, rfl, hd, infix_single, infix_single⟩
    · rcases first_opener (d :: s) with h | ⟨a, e, b, h1, h2, h3⟩
      · left
        constructor
        · rw [infix_cons2]
          rintro (⟨rfl, rfl⟩ | h')
          · exact hc ⟨rfl, .inl rfl⟩
          · exact h.1 h'
        · rw [infix_cons2]
          rintro (⟨rfl, rfl⟩ | h')
          · exact hc ⟨rfl, .inr rfl⟩
          · exact h.2 h'
      · right
        refine ⟨c :: a, e, b, by rw [h1]; rfl, h2, ?_⟩
        cases a with
        | nil =>
          simp only [List.nil_append, List.cons.injEq] at h1
          obtain ⟨rfl, rfl⟩ := h1
          constructor
          · show ¬ ['/', '/'] <:+: c :: '/' :: []
            rw [infix_cons2]
            rintro (⟨rfl, _⟩ | h')
            · exact hc ⟨rfl, .inl rfl⟩
            · exact infix_single h'
          · show ¬ ['/', '*'] <:+: c :: '/' :: []
            rw [infix_cons2]
            rintro (⟨_, h'⟩ | h')
            · revert h'; decide
            · exact infix_single h'
        | cons a0 a =>
          simp only [List.cons_append, List.cons.injEq] at h1
          obtain ⟨rfl, rfl⟩ := h1
          constructor
          · show ¬ ['/', '/'] <:+: c :: d :: (a ++ ['/'])
            rw [infix_cons2]
            rintro (⟨rfl, rfl⟩ | h')
            · exact hc ⟨rfl, .inl rfl⟩
            · exact h3.1 h'
          · show ¬ ['/', '*'] <:+: c :: d :: (a ++ ['/'])
            rw [infix_cons2]
            rintro (⟨rfl, rfl⟩ | h')
            · exact hc ⟨rfl, .inr rfl⟩
            · exact h3.2 h'

theorem first_close : ∀ s : List Char, ¬ ['*', '/'] <:+: s ∨
    ∃ a b, s = a ++ '*' :: '/' :: b ∧ ¬ ['*', '/'] <:+: a ++ ['*']
  | [] => .inl (by simp)
  | [c] => .inl infix_single
  | c :: d :: s => by
    by_cases hc : c = '*' ∧ d = '/'
    · obtain ⟨rfl, rfl⟩ := hc
      exact .inr ⟨[], s, rfl, infix_single⟩
    · rcases first_close (d :: s) with h | ⟨a, b, h1, h2⟩
      · left
        rw [infix_cons2]
        rintro (⟨rfl, rfl⟩ | h')
        · exact hc ⟨rfl, rfl⟩
        · exact h h'
      · right
        refine ⟨c :: a, b, by rw [h1]; rfl, ?_⟩
        cases a with
        | nil =>
          show ¬ ['*', '/'] <:+: c :: '*' :: []
          rw [infix_cons2]
          rintro (⟨_, h'⟩ | h')
          · revert h'; decide
          · exact infix_single h'
        | cons a0 a =>
          simp only [List.cons_append, List.cons.injEq] at h1
          obtain ⟨rfl, rfl⟩ := h1
          show ¬ ['*', '/'] <:+: c :: d :: (a ++ ['*'])
          rw [infix_cons2]
          rintro (⟨rfl, rfl⟩ | h')
          · exact hc ⟨rfl, rfl⟩
          · exact h2 h'

theorem first_newline (s : List Char) : '\n' ∉ s ∨ ∃ a b, s = a ++ '\n' :: b ∧ '\n' ∉ a := by
  induction s with
  | nil => exact .inl (by simp)
  | cons c s ih =>
    by_cases hc : c = '\n'
    · subst hc
      exact .inr ⟨[], s, rfl, by simp⟩
    · rcases ih with h | ⟨a, b, h1, h2⟩
      · exact .inl (by simp [h, Ne.symm hc])
      · exact .inr ⟨c :: a, b, by rw [h1]; rfl, by simp [h2, Ne.symm hc]⟩

/-- **C47**: every text can be cut into code and comments (so that `C47_result` is about all texts). -/
theorem C47_every_text (t : List Char) : ∃ l : Layout, l.Ok ∧ l.text = t := by
  induction hn : t.length using Nat.strong_induction_on generalizing t with
  | _ n ih =>
    subst hn
    rcases first_opener t with h | ⟨a, d, b, h1, h2, h3⟩
    · exact ⟨⟨[], t, .none⟩, ⟨by simp, by simp [h], trivial⟩, by simp [Layout.text, Tail.text]⟩
    · have step : ∀ (c : Comment) (r : List Char), c.Ok → t = a ++ (c.text ++ r) → r.length < t.length →
          ∃ l : Layout, l.Ok ∧ l.text = t := by
        intro c r hc ht hr
        obtain ⟨l, hl, hlt⟩ := ih r.length hr r rfl
        refine ⟨⟨(a, c) :: l.parts, l.last, l.tail⟩, ⟨?_, hl.last, hl.tail⟩, ?_⟩
        · intro x hx
          rcases List.mem_cons.1 hx with rfl | hx
          · exact ⟨h3, hc⟩
          · exact hl.parts x hx
        · rw [ht, ← hlt]
          simp [Layout.text]
      rcases h2 with rfl | rfl
      · rcases first_newline b with hb | ⟨x, y, hb, hx⟩
        · exact ⟨⟨[], a, .line b⟩, ⟨by simp, by simp [h3], hb⟩, by simp [Layout.text, Tail.text, h1]⟩
        · refine step (.line x) y hx ?_ ?_
          · rw [h1, hb]; simp [Comment.text]
          · rw [h1, hb]; simp; omega
      · rcases first_close b with hb | ⟨x, y, hb, hx⟩
        · exact ⟨⟨[], a, .block b⟩, ⟨by simp, by simp [h3], hb⟩, by simp [Layout.text, Tail.text, h1]⟩
        · refine step (.block x) y hx ?_ ?_
          · rw [h1, hb]; simp [Comment.text]
          · rw [h1, hb]; simp; omega

theorem bytes_append (a b : List Char) : bytes (a ++ b) = bytes a + bytes b := by simp [bytes]

theorem bytes_blanks (n : Nat) : bytes (blanks n) = n := by
  have : Char.utf8Size ' ' = 1 := by decide
  simp [bytes, blanks, this]

theorem comment_bytes (c : Comment) : bytes c.blanked = bytes c.text := by
  have h1 : Char.utf8Size '/' = 1 := by decide
  have h2 : Char.utf8Size '*' = 1 := by decide
  cases c with
  | line s => simp [Comment.blanked, Comment.text, bytes_append, bytes_blanks, bytes_cons, h1]; omega
  | block s =>
    simp [Comment.blanked, Comment.text, bytes_append, bytes_blanks, bytes_cons, h1, h2]
    simp [bytes]
    omega

/-- **C47**: the result has as many bytes as the text. -/
theorem C47_same_length (t o : List Char) (h : preprocess t = .ok o) : bytes o = bytes t := by
  obtain ⟨l, hl, rfl⟩ := C47_every_text t
  rw [C47_result l hl] at h
  have hparts : ∀ ps : List (List Char × Comment),
      bytes (ps.flatMap fun x => x.1 ++ x.2.blanked) = bytes (ps.flatMap fun x => x.1 ++ x.2.text) := by
    intro ps
    induction ps with
    | nil => rfl
    | cons x ps ih => simp only [List.flatMap_cons, bytes_append, comment_bytes, ih]
  have h1 : Char.utf8Size '/' = 1 := by decide
  cases htl : l.tail with
  | none =>
    rw [htl] at h
    injection h with h
    rw [← h]
    simp [Layout.blanked, Layout.text, bytes_append, hparts, htl, Tail.text]
  | line s =>
    rw [htl] at h
    injection h with h
    rw [← h]
    simp [Layout.blanked, Layout.text, bytes_append, hparts, htl, Tail.text, bytes_blanks, bytes_cons, h1]
    omega
  | block s => rw [htl] at h; cases h

theorem parts_bytes (ps : List (List Char × Comment)) :
    bytes (ps.flatMap fun x => x.1 ++ x.2.blanked) = bytes (ps.flatMap fun x => x.1 ++ x.2.text) := by
  induction ps with
  | nil => rfl
  | cons x ps ih => simp only [List.flatMap_cons, bytes_append, comment_bytes, ih]

/-- **C47**: code stays at its byte position: before every stretch of code there are as many bytes in
the result as in the text. -/
theorem C47_same_position (l : Layout) (hl : l.Ok) {o : List Char} (h : preprocess l.text = .ok o) :
    (∀ ps qs code c, l.parts = ps ++ (code, c) :: qs →
      ∃ before after, o = before ++ code ++ after ∧ bytes before = bytes (ps.flatMap fun x => x.1 ++ x.2.text)) ∧
    ∃ before after, o = before ++ l.last ++ after ∧
      bytes before = bytes (l.parts.flatMap fun x => x.1 ++ x.2.text) := by
  rw [C47_result l hl] at h
  have ho : o = l.blanked := by
    cases htl : l.tail <;> rw [htl] at h <;> first | (injection h with h; exact h.symm) | cases h
  constructor
  · intro ps qs code c hps
    refine ⟨ps.flatMap fun x => x.1 ++ x.2.blanked, c.blanked ++ (qs.flatMap (fun x => x.1 ++ x.2.blanked) ++
      (l.last ++ match l.tail with
        | .line s => blanks (2 + bytes s)
        | _ => [])), ?_, parts_bytes ps⟩
    rw [ho, Layout.blanked, hps]
    simp only [List.flatMap_append, List.flatMap_cons, List.append_assoc]
  · refine ⟨l.parts.flatMap fun x => x.1 ++ x.2.blanked, match l.tail with
        | .line s => blanks (2 + bytes s)
        | _ => [], ?_, parts_bytes _⟩
    rw [ho, Layout.blanked, List.append_assoc]

theorem opener_unique {a b x y : List Char} {d e : Char} (h : a ++ '/' :: d :: b = x ++ '/' :: e :: y)
    (hd : d = '/' ∨ d = '*') (he : e = '/' ∨ e = '*') (ha : Plain (a ++ ['/'])) (hx : Plain (x ++ ['/'])) :
    a = x ∧ d = e ∧ b = y := by
  have aux : ∀ (a b x y : List Char) (d e : Char), a ++ '/' :: d :: b = x ++ '/' :: e :: y →
      (d = '/' ∨ d = '*') → Plain (x ++ ['/']) → ¬ a.length < x.length := by
    intro a b x y d e h hd hx hlt
    have hpre : (a ++ ['/', d]) <+: (x ++ ['/']) := by
      have h1 : (a ++ ['/', d]) <+: (x ++ '/' :: e :: y) := ⟨b, by rw [← h]; simp⟩
      have h2 : (x ++ ['/']) <+: (x ++ '/' :: e :: y) := ⟨e :: y, by simp⟩
      exact List.prefix_of_prefix_length_le h1 h2 (by simp; omega)
    have hin : ['/', d] <:+: (x ++ ['/']) := List.IsInfix.trans ⟨a, [], by simp⟩ hpre.isInfix
    rcases hd with rfl | rfl
    · exact hx.1 hin
    · exact hx.2 hin
  have h1 := aux a b x y d e h hd hx
  have h2 := aux x y a b e d h.symm he ha
  have hlen : a.length = x.length := by omega
  obtain ⟨e1, e2⟩ := List.append_inj h hlen
  simp only [List.cons.injEq, true_and] at e2
  exact ⟨e1, e2.1, e2.2⟩

theorem close_unique {a b x y : List Char} (h : a ++ '*' :: '/' :: b = x ++ '*' :: '/' :: y)
    (ha : ¬ ['*', '/'] <:+: a ++ ['*']) (hx : ¬ ['*', '/'] <:+: x ++ ['*']) : a = x ∧ b = y := by
  have aux : ∀ (a b x y : List Char), a ++ '*' :: '/' :: b = x ++ '*' :: '/' :: y →
      (¬ ['*', '/'] <:+: x ++ ['*']) → ¬ a.length < x.length := by
    intro a b x y h hx hlt
    have hpre : (a ++ ['*', '/']) <+: (x ++ ['*']) := by
      have h1 : (a ++ ['*', '/']) <+: (x ++ '*' :: '/' :: y) := ⟨b, by rw [← h]; simp⟩
      have h2 : (x ++ ['*']) <+: (x ++ '*' :: '/' :: y) := ⟨'/' :: y, by simp⟩
      exact List.prefix_of_prefix_length_le h1 h2 (by simp; omega)
    exact hx (List.IsInfix.trans ⟨a, [], by simp⟩ hpre.isInfix)
  have h1 := aux a b x y h hx
  have h2 := aux x y a b h.symm ha
  obtain ⟨e1, e2⟩ := List.append_inj h (by omega)
  simp only [List.cons.injEq, true_and] at e2
  exact ⟨e1, e2⟩

theorem newline_unique {a b x y : List Char} (h : a ++ '\n' :: b = x ++ '\n' :: y)
    (ha : '\n' ∉ a) (hx : '\n' ∉ x) : a = x ∧ b = y := by
  induction a generalizing x with
  | nil =>
    cases x with
    | nil => simpa using h
    | cons c x =>
      simp only [List.nil_append, List.cons_append, List.cons.injEq] at h
      exact absurd (by rw [← h.1]; simp) hx
  | cons c a ih =>
    cases x with
    | nil =>
      simp only [List.nil_append, List.cons_append, List.cons.injEq] at h
      exact absurd (by rw [h.1]; simp) ha
    | cons d x =>
      simp only [List.cons_append, List.cons.injEq] at h
      obtain ⟨e1, e2⟩ := ih h.2 (by simp at ha; exact ha.2) (by simp at hx; exact hx.2)
      exact ⟨by rw [h.1, e1], e2⟩

theorem plain_opener {s a b : List Char} {d : Char} (hd : d = '/' ∨ d = '*') (h : s = a ++ '/' :: d :: b) :
    ¬ Plain s := by
  subst h
  rintro ⟨h1, h2⟩
  rcases hd with rfl | rfl
  · exact h1 ⟨a, b, by simp⟩
  · exact h2 ⟨a, b, by simp⟩

/-- **C47**: a text can be cut into code and comments in one way only. -/
theorem C47_unique (l l' : Layout) (hl : l.Ok) (hl' : l'.Ok) (h : l.text = l'.text) : l = l' := by
  obtain ⟨ps, last, tail⟩ := l
  obtain ⟨qs, last', tail'⟩ := l'
  have hsplit : ∀ (ps : List (List Char × Comment)) (last : List Char) (tail : Tail),
      Layout.Ok ⟨ps, last, tail⟩ →
      (ps = [] ∧ tail = .none ∧ Plain last ∧ Layout.text ⟨ps, last, tail⟩ = last) ∨
      (∃ a c rest, ps = (a, c) :: rest ∧ Plain (a ++ ['/']) ∧ c.Ok ∧ Layout.Ok ⟨rest, last, tail⟩ ∧
        Layout.text ⟨ps, last, tail⟩ = a ++ (c.text ++ Layout.text ⟨rest, last, tail⟩)) ∨
      (ps = [] ∧ tail ≠ .none ∧ Plain (last ++ ['/']) ∧ tail.Ok ∧
        Layout.text ⟨ps, last, tail⟩ = last ++ tail.text) := by
    intro ps last tail h
    cases ps with
    | nil =>
      by_cases ht : tail = .none
      · left
        have := h.last
        simp only [ht, if_true] at this
        exact ⟨rfl, ht, this, by simp [Layout.text, ht, Tail.text]⟩
      · right; right
        have := h.last
        simp only [ht, if_false] at this
        exact ⟨rfl, ht, this, h.tail, by simp [Layout.text]⟩
    | cons x rest =>
      right; left
      obtain ⟨h1, h2⟩ := h.parts x (by simp)
      exact ⟨x.1, x.2, rest, rfl, h1, h2, ⟨fun y hy => h.parts y (by simp [hy]), h.last, h.tail⟩,
        by simp [Layout.text]⟩
  have topen : ∀ (t : Tail), t ≠ .none → ∃ d b, t.text = '/' :: d :: b ∧ (d = '/' ∨ d = '*') := by
    intro t ht
    cases t with
    | none => exact absurd rfl ht
    | line s => exact ⟨'/', s, rfl, .inl rfl⟩
    | block s => exact ⟨'*', s, rfl, .inr rfl⟩
  have copen : ∀ (c : Comment) (r : List Char), ∃ d b, c.text ++ r = '/' :: d :: b ∧ (d = '/' ∨ d = '*') := by
    intro c r
    cases c with
    | line s => exact ⟨'/', s ++ ['\n'] ++ r, by simp [Comment.text], .inl rfl⟩
    | block s => exact ⟨'*', s ++ ['*', '/'] ++ r, by simp [Comment.text], .inr rfl⟩
  induction ps generalizing qs with
  | nil =>
    rcases hsplit [] last tail hl with ⟨_, t1, p1, e1⟩ | ⟨_, _, _, hx, _⟩ | ⟨_, t1, p1, k1, e1⟩
    · rcases hsplit qs last' tail' hl' with ⟨rfl, t2, p2, e2⟩ | ⟨a, c, rest, rfl, p2, _, _, e2⟩ | ⟨rfl, t2, p2, k2, e2⟩
      · rw [e1, e2] at h
        rw [h, t1, t2]
      · obtain ⟨d, b, hb, hd⟩ := copen c (Layout.text ⟨rest, last', tail'⟩)
        exact absurd p1 (plain_opener hd (by rw [← e1, h, e2, hb]))
      · obtain ⟨d, b, hb, hd⟩ := topen tail' t2
        exact absurd p1 (plain_opener hd (by rw [← e1, h, e2, hb]))
    · cases hx
    · rcases hsplit qs last' tail' hl' with ⟨rfl, t2, p2, e2⟩ | ⟨a, c, rest, rfl, p2, k2, _, e2⟩ | ⟨rfl, t2, p2, k2, e2⟩
      · obtain ⟨d, b, hb, hd⟩ := topen tail t1
        exact absurd p2 (plain_opener hd (by rw [← e2, ← h, e1, hb]))
      · exfalso
        rw [e1, e2] at h
        cases tail with
        | none => exact t1 rfl
        | line s =>
          cases c with
          | line u =>
            have h' : last ++ '/' :: '/' :: s = a ++ '/' :: '/' :: (u ++ '\n' :: Layout.text ⟨rest, last', tail'⟩) := by
              simpa [Tail.text, Comment.text] using h
            obtain ⟨_, _, e⟩ := opener_unique h' (.inl rfl) (.inl rfl) p1 p2
            exact k1 (by rw [e]; simp)
          | block u =>
            have h' : last ++ '/' :: '/' :: s = a ++ '/' :: '*' :: (u ++ '*' :: '/' :: Layout.text ⟨rest, last', tail'⟩) := by
              simpa [Tail.text, Comment.text] using h
            obtain ⟨_, e, _⟩ := opener_unique h' (.inl rfl) (.inr rfl) p1 p2
            revert e; decide
        | block s =>
          cases c with
          | line u =>
            have h' : last ++ '/' :: '*' :: s = a ++ '/' :: '/' :: (u ++ '\n' :: Layout.text ⟨rest, last', tail'⟩) := by
              simpa [Tail.text, Comment.text] using h
            obtain ⟨_, e, _⟩ := opener_unique h' (.inr rfl) (.inl rfl) p1 p2
            revert e; decide
          | block u =>
            have h' : last ++ '/' :: '*' :: s = a ++ '/' :: '*' :: (u ++ '*' :: '/' :: Layout.text ⟨rest, last', tail'⟩) := by
              simpa [Tail.text, Comment.text] using h
            obtain ⟨_, _, e⟩ := opener_unique h' (.inr rfl) (.inr rfl) p1 p2
            exact k1 ⟨u, Layout.text ⟨rest, last', tail'⟩, by rw [e]; simp⟩
      · rw [e1, e2] at h
        obtain ⟨d, b, hb, hd⟩ := topen tail t1
        obtain ⟨d', b', hb', hd'⟩ := topen tail' t2
        have h' := h
        rw [hb, hb'] at h'
        obtain ⟨u1, u2, u3⟩ := opener_unique h' hd hd' p1 p2
        have ht : tail.text = tail'.text := by rw [hb, hb', u2, u3]
        subst u1
        congr 1
        cases tail <;> cases tail' <;> simp_all [Tail.text]
  | cons x ps ih =>
    rcases hsplit (x :: ps) last tail hl with ⟨hx, _⟩ | ⟨a, c, rest, hx, p1, k1, o1, e1⟩ | ⟨hx, _⟩
    · cases hx
    · simp only [List.cons.injEq] at hx
      obtain ⟨rfl, rfl⟩ := hx
      rcases hsplit qs last' tail' hl' with ⟨rfl, t2, p2, e2⟩ | ⟨a', c', rest', rfl, p2, k2, o2, e2⟩ | ⟨rfl, t2, p2, k2, e2⟩
      · obtain ⟨d, b, hb, hd⟩ := copen c (Layout.text ⟨ps, last, tail⟩)
        exact absurd p2 (plain_opener hd (by rw [← e2, ← h, e1, hb]))
      · rw [e1, e2] at h
        have fin : a = a' → c = c' → Layout.text ⟨ps, last, tail⟩ = Layout.text ⟨rest', last', tail'⟩ →
            (⟨(a, c) :: ps, last, tail⟩ : Layout) = ⟨(a', c') :: rest', last', tail'⟩ := by
          rintro rfl rfl ht
          have := ih o1 rest' o2 ht
          simp only [Layout.mk.injEq] at this ⊢
          exact ⟨by rw [this.1], this.2⟩
        cases c with
        | line u =>
          cases c' with
          | line v =>
            have h' : a ++ '/' :: '/' :: (u ++ '\n' :: Layout.text ⟨ps, last, tail⟩) =
                a' ++ '/' :: '/' :: (v ++ '\n' :: Layout.text ⟨rest', last', tail'⟩) := by
              simpa [Comment.text] using h
            obtain ⟨u1, _, u3⟩ := opener_unique h' (.inl rfl) (.inl rfl) p1 p2
            obtain ⟨w1, w2⟩ := newline_unique u3 k1 k2
            exact fin u1 (by rw [w1]) w2
          | block v =>
            have h' : a ++ '/' :: '/' :: (u ++ '\n' :: Layout.text ⟨ps, last, tail⟩) =
                a' ++ '/' :: '*' :: (v ++ '*' :: '/' :: Layout.text ⟨rest', last', tail'⟩) := by
              simpa [Comment.text] using h
            obtain ⟨_, e, _⟩ := opener_unique h' (.inl rfl) (.inr rfl) p1 p2
            exact absurd e (by decide)
        | block u =>
          cases c' with
          | line v =>
            have h' : a ++ '/' :: '*' :: (u ++ '*' :: '/' :: Layout.text ⟨ps, last, tail⟩) =
                a' ++ '/' :: '/' :: (v ++ '\n' :: Layout.text ⟨rest', last', tail'⟩) := by
              simpa [Comment.text] using h
            obtain ⟨_, e, _⟩ := opener_unique h' (.inr rfl) (.inl rfl) p1 p2
            exact absurd e (by decide)
          | block v =>
            have h' : a ++ '/' :: '*' :: (u ++ '*' :: '/' :: Layout.text ⟨ps, last, tail⟩) =
                a' ++ '/' :: '*' :: (v ++ '*' :: '/' :: Layout.text ⟨rest', last', tail'⟩) := by
              simpa [Comment.text] using h
            obtain ⟨u1, _, u3⟩ := opener_unique h' (.inr rfl) (.inr rfl) p1 p2
            obtain ⟨w1, w2⟩ := close_unique u3 k1 k2
            exact fin u1 (by rw [w1]) w2
      · exfalso
        rw [e1, e2] at h
        cases tail' with
        | none => exact t2 rfl
        | line s =>
          cases c with
          | line u =>
            have h' : a ++ '/' :: '/' :: (u ++ '\n' :: Layout.text ⟨ps, last, tail⟩) = last' ++ '/' :: '/' :: s := by
              simpa [Tail.text, Comment.text] using h
            obtain ⟨_, _, e⟩ := opener_unique h' (.inl rfl) (.inl rfl) p1 p2
            exact k2 (by rw [← e]; simp)
          | block u =>
            have h' : a ++ '/' :: '*' :: (u ++ '*' :: '/' :: Layout.text ⟨ps, last, tail⟩) = last' ++ '/' :: '/' :: s := by
              simpa [Tail.text, Comment.text] using h
            obtain ⟨_, e, _⟩ := opener_unique h' (.inr rfl) (.inl rfl) p1 p2
            exact absurd e (by decide)
        | block s =>
          cases c with
          | line u =>
            have h' : a ++ '/' :: '/' :: (u ++ '\n' :: Layout.text ⟨ps, last, tail⟩) = last' ++ '/' :: '*' :: s := by
              simpa [Tail.text, Comment.text] using h
            obtain ⟨_, e, _⟩ := opener_unique h' (.inl rfl) (.inr rfl) p1 p2
            exact absurd e (by decide)
          | block u =>
            have h' : a ++ '/' :: '*' :: (u ++ '*' :: '/' :: Layout.text ⟨ps, last, tail⟩) = last' ++ '/' :: '*' :: s := by
              simpa [Tail.text, Comment.text] using h
            obtain ⟨_, _, e⟩ := opener_unique h' (.inr rfl) (.inr rfl) p1 p2
            exact k2 ⟨u, Layout.text ⟨ps, last, tail⟩, by rw [← e]; simp⟩
    · cases hx

/-- **C47**, position of the error (part): if everything up to the unclosed comment is ASCII, the
reported position is the byte offset just behind the opening `/*`. Missing: other characters, see
`C47_location_violated`. -/
theorem C47_location_partial (t : List Char) (pos : Nat) (h : preprocess t = .error pos) :
    ∃ before body, t = before ++ '/' :: '*' :: body ∧ (¬ ['*', '/'] <:+: body) ∧
      ((∀ c ∈ before, c.utf8Size = 1) → pos = bytes (before ++ ['/', '*'])) := by
  obtain ⟨l, hl, rfl⟩ := C47_every_text t
  rw [C47_result l hl] at h
  have hk := hl.tail
  cases htl : l.tail with
  | none => rw [htl] at h; cases h
  | line s => rw [htl] at h; cases h
  | block s =>
    rw [htl] at h hk
    injection h with h
    refine ⟨l.parts.flatMap (fun x => x.1 ++ x.2.text) ++ l.last, s, by simp [Layout.text, htl, Tail.text], hk, ?_⟩
    intro hascii
    have hb : ∀ u : List Char, (∀ c ∈ u, c.utf8Size = 1) → bytes u = u.length := by
      intro u hu
      induction u with
      | nil => rfl
      | cons c u ih =>
        rw [bytes_cons, hu c (by simp), ih fun c hc => hu c (by simp [hc])]
        simp; omega
    have h1 : Char.utf8Size '/' = 1 := by decide
    have h2 : Char.utf8Size '*' = 1 := by decide
    rw [bytes_append, hb _ hascii, ← h]
    simp [bytes, h1, h2]

/-- **C47**, position of the error: the reported position counts characters, but is used as a byte
offset; after characters of more than one byte it points to a wrong place. Here `/*` ends at
byte 8 and the report says 5. -/
theorem C47_location_violated : preprocess ("ééé/*".toList) = .error 5 ∧ bytes ("ééé/*".toList) = 8 := by
  decide

/-- Not a comment for the lexer, but treated as one: two slashes inside a string literal. The closing
quote, the parenthesis and the semicolon are blanked. -/
theorem C47_strings_violated : preprocess ("log(\"a//b\");".toList) = .ok ("log(\"a      ".toList) := by
  decide

/-- Non-vacuity: code, both kinds of comments, stars and slashes inside them, an accented letter. -/
def sampleLayout : Layout :=
  ⟨[("a/b".toList, .line "é / *".toList), ("c".toList, .block "*x**".toList)], "d".toList, .line "/e".toList⟩

instance (s : List Char) : Decidable (Plain s) := by unfold Plain; infer_instance

example : sampleLayout.Ok := by
  refine ⟨?_, by decide, by show '\n' ∉ _; decide⟩
  intro x hx
  simp only [sampleLayout, List.mem_cons, List.not_mem_nil, or_false] at hx
  rcases hx with rfl | rfl
  · exact ⟨by decide, by show '\n' ∉ _; decide⟩
  · exact ⟨by decide, by show ¬ ['*', '/'] <:+: _; decide⟩

example : preprocess sampleLayout.text = .ok sampleLayout.blanked ∧
    String.ofList sampleLayout.text = "a/b//é / *\nc/**x***/d///e" ∧
    String.ofList sampleLayout.blanked = "a/b        \nc        d    " := by decide +kernel

/-- Non-vacuity of `C47_location_partial`: an unclosed comment behind a closed one. -/
example : preprocess ("a/*b*/c/*d*".toList) = .error 9 := by decide

end Verif.Props.Preprocess
