import Mathlib.Data.List.Infix

/-!
Model of `preprocess` (`parser/src/parser_logic.rs:9-82`): removal of comments before parsing.

Texts are lists of characters (`expr.chars()`, `String::push`); byte lengths are those of UTF-8.
-/

namespace Verif.Preprocess

/-- The values 0, 1, 2 of `state` (parser_logic.rs:11); `star` is the position inside the treatment of
a `*` in a block comment (parser_logic.rs:49-54, before the next character is read), where `state`
is 2. -/
inductive PState where
  | code | line | block | star
  deriving DecidableEq, Repr

/-- `n` times `pp.push(' ')`. -/
def blanks (n : Nat) : List Char := List.replicate n ' '

/-- parser_logic.rs:15-72, the loop. Arguments: state, `loc`, `block_start`, characters still to be
read. Result: characters pushed, final state, final `block_start`. -/
def scan : PState → Nat → Nat → List Char → List Char × PState × Nat
  | .code, _, bs, [] => ([], .code, bs)
  | .code, _, bs, [c] => ([c], .code, bs)
  | .code, loc, bs, c0 :: c1 :: r =>
    if c0 = '/' then
      if c1 = '/' then
        let x := scan .line (loc + 2) bs r
        (' ' :: ' ' :: x.1, x.2)
      else if c1 = '*' then
        let x := scan .block (loc + 2) (loc + 2) r
        (' ' :: ' ' :: x.1, x.2)
      else
        let x := scan .code (loc + 2) bs r
        (c0 :: c1 :: x.1, x.2)
    else
      let x := scan .code (loc + 1) bs (c1 :: r)
      (c0 :: x.1, x.2)
  | .line, _, bs, [] => ([], .line, bs)
  | .line, loc, bs, c :: r =>
    if c = '\n' then
      let x := scan .code (loc + 1) bs r
      (c :: x.1, x.2)
    else
      let x := scan .line (loc + 1) bs r
      (blanks c.utf8Size ++ x.1, x.2)
  | .block, _, bs, [] => ([], .block, bs)
  | .block, loc, bs, c :: r =>
    if c = '*' then scan .star (loc + 1) bs r
    else
      let x := scan .block (loc + 1) bs r
      (blanks c.utf8Size ++ x.1, x.2)
  | .star, _, bs, [] => ([], .block, bs)
  | .star, loc, bs, c :: r =>
    if c = '*' then
      let x := scan .star (loc + 1) bs r
      (' ' :: x.1, x.2)
    else if c = '/' then
      let x := scan .code (loc + 1) bs r
      (' ' :: ' ' :: x.1, x.2)
    else
      let x := scan .block (loc + 1) bs r
      (' ' :: blanks c.utf8Size ++ x.1, x.2)

/-- parser_logic.rs:9-82, `preprocess`. The error carries the reported position. -/
def preprocess (text : List Char) : Except Nat (List Char) :=
  let x := scan .code 0 0 text
  if x.2.1 = .block then .error x.2.2 else .ok x.1

end Verif.Preprocess
