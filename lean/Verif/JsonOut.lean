import Verif.Dag
import Mathlib.Data.List.Sort

/-!
# The JSON files of constraints and of substitutions

Model of `--json` (`constraint_writers/src/json_writer.rs`, `constraint_list/src/json_porting.rs`, `dag/src/json_porting.rs`) and of
the text of `--simplification_substitution`.  A file is the list of its characters, all of them below 128.  Failures of the operating system are left out,
and so is the splitting into `flush`ed pieces.
-/

namespace Verif.JsonOut
open Verif.ModArith (Res)
open Verif.Dag
open Verif.R1cs (Triple)

abbrev Text := List Char

/-- The values of the crate `json` that are built here. -/
inductive Val where
  | str (s : Text)
  | arr (l : List Val)
  | obj (l : List (Text × Val))

/-- `format!("{}", key)` of a `usize` (json_porting.rs:23). -/
def key (k : Nat) : Text := Nat.toDigits 10 k

/-- `BigInt::to_str_radix(10)` (json_porting.rs:22; external). -/
def number (v : Int) : Text := if v < 0 then '-' :: Nat.toDigits 10 v.natAbs else Nat.toDigits 10 v.natAbs

/-- `correspondence[key] = value` of `JsonValue::Object` (json_porting.rs:23; external): in place, or a new entry at the end. -/
def setKey (k : Text) (v : Val) : List (Text × Val) → List (Text × Val)
  | [] => [(k, v)]
  | e :: l => if e.1 = k then (k, v) :: l else e :: setKey k v l

/-- constraint_list/src/json_porting.rs:16-26 and dag/src/json_porting.rs:18-28 `hashmap_as_json`. -/
def hashmap (m : CMap Nat) : Val :=
  .obj ((m.keys.insertionSort (· ≤ ·)).foldl (fun l k => setKey (key k) (.str (number ((CMap.get m k).getD 0))) l) [])

/-- constraint_list/src/json_porting.rs:8-14 and dag/src/json_porting.rs:11-17 `transform_constraint_to_json`. -/
def transform (c : Triple) : Val := .arr [hashmap c.1, hashmap c.2.1, hashmap c.2.2]

/-- The text with a comma between two entries. -/
def commas : List Text → Text
  | [] => []
  | [t] => t
  | t :: ts => t ++ ',' :: commas ts

mutual
/-- `JsonValue::to_string` (external, crate `json` 0.12): without spaces.  Characters that have to be escaped do not occur here and
are left out. -/
def dump : Val → Text
  | .str s => '"' :: s ++ ['"']
  | .arr l => '[' :: commas (dumps l) ++ [']']
  | .obj l => '{' :: commas (dumpEntries l) ++ ['}']

def dumps : List Val → List Text
  | [] => []
  | v :: l => dump v :: dumps l

def dumpEntries : List (Text × Val) → List Text
  | [] => []
  | (k, v) :: l => ('"' :: k ++ '"' :: ':' :: dump v) :: dumpEntries l
end

/-- json_writer.rs:4-7 `ConstraintJSON` and 68-71 `SubstitutionJSON`: what has been written, and whether an entry has. -/
structure Writer where
  text : Text
  started : Bool

/-- json_writer.rs:10-20 `ConstraintJSON::new`. -/
def newConstraints : Writer := ⟨"{".toList ++ "\n\"constraints\": [".toList, false⟩

/-- json_writer.rs:21-33 `write_constraint`. -/
def Writer.constraint (w : Writer) (t : Text) : Writer :=
  if w.started = false then ⟨w.text ++ "\n".toList ++ t, true⟩ else ⟨w.text ++ ",\n".toList ++ t, w.started⟩

/-- json_writer.rs:34-38 `end`. -/
def Writer.endConstraints (w : Writer) : Text := w.text ++ "\n]\n}".toList

/-- json_writer.rs:73-80 `SubstitutionJSON::new` (`started` is the negation of `first`). -/
def newSubstitutions : Writer := ⟨"{".toList, false⟩

/-- json_writer.rs:81-93 `write_substitution`. -/
def Writer.substitution (w : Writer) (signal sub : Text) : Writer :=
  let text := if w.started = false then w.text ++ "\n".toList else w.text ++ ",\n".toList
  ⟨text ++ ('"' :: signal ++ "\" : ".toList ++ sub), true⟩

/-- json_writer.rs:94-97 `end`. -/
def Writer.endSubstitutions (w : Writer) : Text := w.text ++ "\n}".toList

/-- constraint_list/src/json_porting.rs:35-48 `port_constraints`: the file for a simplified circuit. -/
def portList (storage : List C) (map : BMap Nat) : Res Text := do
  let w ← storage.foldlM (fun (w : Writer) c => do
    let c ← c.applyCorrespondence (fun s => BMap.get map s)
    .ok (w.constraint (dump (transform (c.a, c.b, c.c))))) newConstraints
  .ok w.endConstraints

/-- dag/src/json_porting.rs:30-34 `visit_tree` at one tree. -/
def visitTree (w : Writer) (t : Tree) : Res Writer :=
  .ok (t.constraints.foldl (fun w c => w.constraint (dump (transform (c.a, c.b, c.c)))) w)

/-- dag/src/json_porting.rs:42-46 `port_constraints` (with 35-39, the sub-trees): the file for an unsimplified circuit. -/
def portDag (d : Graph) : Res Text := do
  let t ← Tree.new d
  let w ← walk d visitTree d.nodes.length t newConstraints
  .ok w.endConstraints

/-- constraint_list/src/json_porting.rs:29-33 `port_substitution`. -/
def portSubstitution (s : Nat × CMap Nat) : Text × Text := (key s.1, dump (hashmap s.2))

/-- constraint_list/src/constraint_simplification.rs:9-17 `log_substitutions`. -/
def logSubstitutions (w : Writer) (ss : List (Nat × CMap Nat)) : Writer :=
  ss.foldl (fun w s => w.substitution (portSubstitution s).1 (portSubstitution s).2) w

/-- The file of substitutions after several calls of `log_substitutions`
(constraint_simplification.rs:448-453, 249, 271, 320, 725-727; with `--O0` no call, constraint_generation/src/lib.rs:64-69). -/
def substitutionFile (batches : List (List (Nat × CMap Nat))) : Text :=
  (batches.foldl logSubstitutions newSubstitutions).endSubstitutions

/-! ### Reading JSON -/

/-- White space of RFC 8259. -/
def ws (t : Text) : Text := t.dropWhile fun c => c = ' ' || c = '\n' || c = '\t' || c = '\r'

/-- The rest of a string after its opening quotation mark.  Strings with escapes are refused, so that less is accepted than in
RFC 8259. -/
def str : Text → Option (Text × Text)
  | [] => none
  | c :: r =>
    if c = '"' then some ([], r)
    else if c = '\\' || c.toNat < 32 then none
    else (str r).map fun p => (c :: p.1, p.2)

mutual
/-- A value of RFC 8259 (strings, arrays and objects; no numbers and literals), and the text after it. -/
def value : Nat → Text → Option (Val × Text)
  | 0, _ => none
  | n + 1, t =>
    match ws t with
    | [] => none
    | c :: r =>
      if c = '"' then (str r).map fun p => (.str p.1, p.2)
      else if c = '[' then
        if (ws r).head? = some ']' then some (.arr [], (ws r).tail) else (items n r).map fun p => (.arr p.1, p.2)
      else if c = '{' then
        if (ws r).head? = some '}' then some (.obj [], (ws r).tail) else (members n r).map fun p => (.obj p.1, p.2)
      else none

/-- The values of an array, and the text after its bracket. -/
def items : Nat → Text → Option (List Val × Text)
  | 0, _ => none
  | n + 1, t =>
    match value n t with
    | none => none
    | some (v, r) =>
      match ws r with
      | [] => none
      | c :: r =>
        if c = ',' then (items n r).map fun p => (v :: p.1, p.2)
        else if c = ']' then some ([v], r)
        else none

/-- The entries of an object, and the text after its brace. -/
def members : Nat → Text → Option (List (Text × Val) × Text)
  | 0, _ => none
  | n + 1, t =>
    match ws t with
    | [] => none
    | c :: r =>
      if c = '"' then
        match str r with
        | none => none
        | some (k, r) =>
          match ws r with
          | [] => none
          | c :: r =>
            if c = ':' then
              match value n r with
              | none => none
              | some (v, r) =>
                match ws r with
                | [] => none
                | c :: r =>
                  if c = ',' then (members n r).map fun p => ((k, v) :: p.1, p.2)
                  else if c = '}' then some ([(k, v)], r)
                  else none
            else none
      else none
end

/-- A JSON text. -/
def parse (t : Text) : Option Val :=
  match value (t.length + 1) t with
  | some (v, r) => if ws r = [] then some v else none
  | none => none

/-- A natural number in decimal. -/
def natOf (t : Text) : Option Nat :=
  if t ≠ [] ∧ ∀ c ∈ t, '0' ≤ c ∧ c ≤ '9' then some (t.foldl (fun n c => 10 * n + (c.toNat - 48)) 0) else none

/-- An integer in decimal. -/
def intOf : Text → Option Int
  | '-' :: t => (natOf t).map fun (n : Nat) => -(n : Int)
  | t => (natOf t).map fun (n : Nat) => (n : Int)

/-- An object from numbers to numbers. -/
def readMap : Val → Option (CMap Nat)
  | .obj l => l.mapM fun e =>
    match e.2 with
    | .str s => match natOf e.1, intOf s with
      | some k, some v => some (k, v)
      | _, _ => none
    | _ => none
  | _ => none

/-- A list of three objects. -/
def readRow : Val → Option Triple
  | .arr [a, b, c] => match readMap a, readMap b, readMap c with
    | some a, some b, some c => some (a, b, c)
    | _, _, _ => none
  | _ => none

/-- What a reader of the file of constraints finds: an object with the one entry `constraints`. -/
def readConstraints (t : Text) : Option (List Triple) :=
  match parse t with
  | some (.obj [(k, .arr l)]) => if k = "constraints".toList then l.mapM readRow else none
  | _ => none

/-- What a reader of the file of substitutions finds: an object with an entry for each signal removed. -/
def readSubstitutions (t : Text) : Option (List (Nat × CMap Nat)) :=
  match parse t with
  | some (.obj l) => l.mapM fun e => match natOf e.1, readMap e.2 with
    | some k, some m => some (k, m)
    | _, _ => none
  | _ => none

end Verif.JsonOut
