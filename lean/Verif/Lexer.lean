import Verif.Grammar

/-!
# The tokens of a text

The tokenizer that LALRPOP makes of the literals and regular expressions of `/repo/parser/src/lang.lalrpop` (there is no `match` block, so it is the
default one): blanks are passed over, and otherwise the longest literal or regular expression that matches at the place is taken, a literal
before a regular expression of the same length.  The text is the one after `preprocess` (parser_logic.rs:91-94).

Simplifications: the place of an error is left out; the values of numbers, which the parser computes when it takes a token, are computed
at once, so a text with `0x` and no digits is a panic even if the parser would have refused it before.
-/

namespace Verif.Lexer

open Verif.Grammar

/-- The literals of lang.lalrpop:14-834 with their tokens. -/
def literals : List (String × Tok) :=
  [("parallel", .kw .parallel), ("if", .kw .if_), ("else", .kw .else_), ("for", .kw .for_), ("while", .kw .while_), ("return", .kw .return_),
    ("log", .kw .log), ("assert", .kw .assert), ("var", .kw .var), ("component", .kw .component), ("signal", .kw .signal), ("input", .kw .input),
    ("output", .kw .output), ("function", .kw .function), ("template", .kw .template), ("bus", .kw .bus), ("main", .kw .main),
    ("public", .kw .public_), ("custom", .kw .custom), ("extern_c", .kw .externC), ("pragma", .kw .pragma), ("circom", .kw .circom),
    ("custom_templates", .kw .customTemplates), ("include", .kw .include),
    ("(", .lpar), (")", .rpar), ("[", .lbr), ("]", .rbr), ("{", .lcb), ("}", .rcb), (",", .comma), (".", .dot), (";", .semi), ("?", .quest),
    (":", .colon), ("_", .under),
    ("=", .assign .var), ("<--", .assign .sig), ("<==", .assign .con), ("-->", .right .sig), ("==>", .right .con), ("===", .eqq),
    ("++", .pp), ("--", .mm),
    ("\\=", .opEq .intDiv), ("**=", .opEq .pow), ("+=", .opEq .add), ("-=", .opEq .sub), ("*=", .opEq .mul), ("/=", .opEq .div),
    ("%=", .opEq .mod), ("<<=", .opEq .shiftL), (">>=", .opEq .shiftR), ("&=", .opEq .bitAnd), ("|=", .opEq .bitOr), ("^=", .opEq .bitXor),
    ("!", .bang), ("~", .tilde),
    ("||", .op .or), ("&&", .op .and), ("==", .op .eq), ("!=", .op .ne), ("<", .op .lt), (">", .op .gt), ("<=", .op .le), (">=", .op .ge),
    ("|", .op .bitOr), ("^", .op .bitXor), ("&", .op .bitAnd), ("<<", .op .shiftL), (">>", .op .shiftR), ("+", .op .add), ("-", .op .sub),
    ("*", .op .mul), ("/", .op .div), ("\\", .op .intDiv), ("%", .op .mod), ("**", .op .pow)]

/-- `\s`: the characters with the Unicode property White_Space. -/
def isSpace (c : Char) : Bool :=
  let n := c.toNat
  (9 ≤ n && n ≤ 13) || n == 32 || n == 0x85 || n == 0xA0 || n == 0x1680 || (0x2000 ≤ n && n ≤ 0x200A) || n == 0x2028 || n == 0x2029 ||
    n == 0x202F || n == 0x205F || n == 0x3000

/-- `[$_]` of lang.lalrpop:847. -/
def isMark (c : Char) : Bool := c == '$' || c == '_'

/-- `[a-zA-Z$_0-9]` of lang.lalrpop:847. -/
def isWordChar (c : Char) : Bool := c.isAlpha || isMark c || c.isDigit

/-- `[0-9A-Fa-f]` of lang.lalrpop:843. -/
def isHex (c : Char) : Bool := c.isDigit || ('A' ≤ c && c ≤ 'F') || ('a' ≤ c && c ≤ 'f')

/-- The value of a hexadecimal digit. -/
def hexDigit (c : Char) : Nat := if c.isDigit then c.toNat - 48 else if c.toNat ≤ 70 then c.toNat - 55 else c.toNat - 87

/-- `BigInt::parse_bytes` (lang.lalrpop:839, 843). -/
def value (base : Nat) (digit : Char → Nat) (cs : List Char) : Nat := cs.foldl (fun n c => base * n + digit c) 0

/-- What matches at a place. -/
inductive Item where
  | space
  | tok (t : Tok)
  /-- `0x` with no digits: `expect("failed to parse base16")` (lang.lalrpop:843). -/
  | panic
  deriving DecidableEq, Repr

/-- The length of the longest match of `[$_]*[a-zA-Z][a-zA-Z$_0-9]*` (lang.lalrpop:847). -/
def nameLen : List Char → Option Nat
  | c :: cs => if isMark c then (nameLen cs).map (· + 1) else if c.isAlpha then some (1 + (cs.takeWhile isWordChar).length) else none
  | [] => none

/-- The longest match of each regular expression: blanks, lang.lalrpop:839, 843, 847, 851. -/
def patterns (cs : List Char) : List (Nat × Item) :=
  (match nameLen cs with
    | some n => [(n, .tok (.id (String.ofList (cs.take n))))]
    | none => []) ++
  (match cs.takeWhile Char.isDigit with
    | [] => []
    | ds => [(ds.length, .tok (.num (value 10 (fun c => c.toNat - 48) ds)))]) ++
  (match cs with
    | '0' :: 'x' :: r =>
      match r.takeWhile isHex with
      | [] => [(2, .panic)]
      | ds => [(2 + ds.length, .tok (.hex (value 16 hexDigit ds)))]
    | _ => []) ++
  (match cs with
    | '"' :: r =>
      match r.dropWhile (fun c => c != '"' && c != '\n') with
      | '"' :: _ =>
        let s := r.takeWhile (fun c => c != '"' && c != '\n')
        [(2 + s.length, .tok (.str (String.ofList s)))]
      | _ => []
    | _ => []) ++
  (match cs.takeWhile isSpace with
    | [] => []
    | ws => [(ws.length, .space)])

/-- All that matches, the literals first. -/
def candidates (cs : List Char) : List (Nat × Item) :=
  literals.filterMap (fun l => if l.1.toList.isPrefixOf cs then some (l.1.toList.length, .tok l.2) else none) ++ patterns cs

/-- The longest, and of these the first. -/
def best : List (Nat × Item) → Option (Nat × Item)
  | [] => none
  | x :: l =>
    match best l with
    | none => some x
    | some y => if y.1 ≤ x.1 then some x else some y

/-- Why there are no tokens: `InvalidToken` (parser_logic.rs:97), or a panic. -/
inductive Fault where
  | refused | panics
  deriving DecidableEq, Repr

/-- The loop of the tokenizer; a match of a text of `f` characters leaves less. -/
def run : Nat → List Char → Except Fault (List Tok)
  | _, [] => .ok []
  | 0, _ => .error .refused
  | f + 1, cs =>
    match best (candidates cs) with
    | none => .error .refused
    | some (_, .panic) => .error .panics
    | some (n, .space) => run f (cs.drop n)
    | some (n, .tok t) => (run f (cs.drop n)).map (t :: ·)

/-- The tokens of a text. -/
def lex (cs : List Char) : Except Fault (List Tok) := run cs.length cs

end Verif.Lexer
