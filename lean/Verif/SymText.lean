import Verif.Dag
import Verif.JsonOut

/-!
Model of the text of the symbol file: `constraint_writers/src/sym_writer.rs`, on the lines that `Dag` computes.  Numbers are `i64`; their
text is that of an integer (`number`).
-/

namespace Verif.SymText

open Verif.ModArith (Res)
open Verif.Algebra
open Verif.Dag

/-- A text. -/
abbrev Text := List Char

/-- sym_writer.rs:10-14 `to_string` of `SymElem`. -/
def line (e : SymElem) : Text :=
  JsonOut.number e.original ++ ',' :: (JsonOut.number e.witness ++ ',' :: (JsonOut.number e.nodeId ++ ',' :: e.symbol))

/-- sym_writer.rs:27-32 `write_sym_elem`. -/
def writeElem (file : Text) (e : SymElem) : Text := file ++ line e ++ ['\n']

/-- sym_writer.rs:20-36: a new file, one `write_sym_elem` for each line, `finish_writing`. -/
def text (l : List SymElem) : Text := l.foldl writeElem []

/-- dag/src/sym_porting.rs:6-13 `write` (used with `--O0`): the file. -/
def dagText (d : Graph) : Res Text := do
  let l ← dagSym d
  .ok (text l)

/-- constraint_list/src/sym_porting.rs:5-12 `port_sym`: the file. -/
def listText (enc : Encoding) (map : BMap Nat) : Res Text := do
  let l ← listSym enc map
  .ok (text l)

/-! ### A reader (part of the statement)

The readers of symbol files split the text at line ends and each line at commas. -/

/-- The pieces between the characters `c`. -/
def cut (c : Char) : Text → List Text
  | [] => [[]]
  | x :: t =>
    if x = c then [] :: cut c t
    else
      match cut c t with
      | [] => [[x]]
      | w :: ws => (x :: w) :: ws

/-- A line has four pieces: three numbers and a name. -/
def readLine (t : Text) : Option SymElem :=
  match cut ',' t with
  | [a, b, c, s] =>
    match JsonOut.intOf a, JsonOut.intOf b, JsonOut.intOf c with
    | some x, some y, some z => some ⟨x, y, z, s⟩
    | _, _, _ => none
  | _ => none

/-- All lines, each ended by a line end. -/
def readFile (t : Text) : Option (List SymElem) :=
  match (cut '\n' t).getLast? with
  | some [] => (cut '\n' t).dropLast.mapM readLine
  | _ => none

end Verif.SymText
