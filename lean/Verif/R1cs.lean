import Verif.Bytes
import Verif.CMap
import Verif.ModArith
import Mathlib.Data.List.Sort
import Mathlib.Data.Nat.Size

/-!
# Model of `constraint_writers/src/r1cs_writer.rs` and `r1cs_reader.rs`

* A file is the list of its bytes (`Nat`s below 256).  Writing appends; `end_section` seeks back and overwrites.
* I/O errors of the writer are not modelled (writing always succeeds).
* The `sections: [bool; 5]` flags are written and never read; they are left out.
* Strings are byte lists; `String::from_utf8(..).unwrap()` in the reader is taken to succeed.
* `usize` is `Nat`; the reader's `to_usize().unwrap()` is applied to at most 8 bytes and cannot fail.
-/

namespace Verif.R1cs
open Verif.Bytes

/-! ## Writer -/

/-- r1cs_writer.rs:7 `MAGIC`. -/
def magic : List Nat := [114, 49, 99, 115]

/-- r1cs_writer.rs:8 `VERSION`. -/
def version : List Nat := [1, 0, 0, 0]

/-- r1cs_writer.rs:14 `PLACE_HOLDER`. -/
def placeHolder : List Nat := [3, 3, 3, 3, 3, 3, 3, 3]

/-- r1cs_writer.rs:9-13: the section types. -/
def sectionType (t : Nat) : List Nat := [t, 0, 0, 0]

/-- r1cs_writer.rs:16-23 `into_format`: bytes and size. -/
def format (number : List Nat) (withBytes : Nat) : List Nat × Nat :=
  let value := intoFormat number withBytes
  (value, value.length)

/-- r1cs_writer.rs:25-28 `bigint_as_bytes`: bytes and size. -/
def asBytes (number : Int) (withBytes : Nat) : List Nat × Nat := format (toBytesLE number.natAbs) withBytes

/-- Overwrite a part of a file (`seek` followed by `write_all`). -/
def writeAt (file : List Nat) (pos : Nat) (bytes : List Nat) : List Nat :=
  file.take pos ++ bytes ++ file.drop (pos + bytes.length)

/-- The section structs (r1cs_writer.rs:109-153). -/
structure Sec where
  file : List Nat
  goBack : Nat
  size : Nat
  fieldSize : Nat
  count : Nat

/-- r1cs_writer.rs:30-37 `initialize_section` and the `start_*_section` functions (169-228). -/
def startSection (file : List Nat) (fieldSize t : Nat) : Sec :=
  let file := file ++ sectionType t
  ⟨file ++ placeHolder, file.length, 0, fieldSize, 0⟩

/-- `writer.write_all` together with the update of `size`. -/
def Sec.write (s : Sec) (w : List Nat × Nat) : Sec := { s with file := s.file ++ w.1, size := s.size + w.2 }

/-- r1cs_writer.rs:39-47 `end_section`. -/
def Sec.finish (s : Sec) : List Nat := writeAt s.file s.goBack (asBytes s.size 8).1

/-- Order of `Vec<u8>` (external): lexicographic. -/
def bytesLe : List Nat → List Nat → Bool
  | [], _ => true
  | _ :: _, [] => false
  | a :: as, b :: bs => if a < b then true else if a = b then bytesLe as bs else false

/-- r1cs_writer.rs:59-60: `order.sort()` (external; the keys of a map are distinct, so any sort gives this result). -/
def sortKeys (l : List (List Nat)) : List (List Nat) := l.insertionSort fun a b => bytesLe a b = true

/-- The bytes and size of one term (r1cs_writer.rs:62-69). -/
def termBytes (m : CMap (List Nat)) (fieldSize : Nat) (id : List Nat) : List Nat × Nat :=
  let a := format id 4
  let b := asBytes ((CMap.get m id).getD 0) fieldSize
  (a.1 ++ b.1, a.2 + b.2)

/-- r1cs_writer.rs:49-72 `obtain_linear_combination_block`. -/
def linearBlock (m : CMap (List Nat)) (fieldSize : Nat) : List Nat × Nat :=
  let n := asBytes m.length 4
  (sortKeys m.keys).foldl (fun acc id => (acc.1 ++ (termBytes m fieldSize id).1, acc.2 + (termBytes m fieldSize id).2)) n

/-- r1cs_writer.rs:289-303: the keys of a map as byte strings. -/
def byteKeys (m : CMap Nat) : CMap (List Nat) := m.foldl (fun acc e => CMap.insert acc (toBytesLE e.1) e.2) []

/-- A constraint as handed to the writer. -/
abbrev Triple := CMap Nat × CMap Nat × CMap Nat

/-- r1cs_writer.rs:74-91 `write_constraint` and 282-308 `write_constraint_usize`. -/
def writeConstraint (s : Sec) (c : Triple) : Sec :=
  let a := linearBlock (byteKeys c.1) s.fieldSize
  let b := linearBlock (byteKeys c.2.1) s.fieldSize
  let d := linearBlock (byteKeys c.2.2) s.fieldSize
  { s with file := s.file ++ a.1 ++ b.1 ++ d.1, size := s.size + (a.2 + b.2 + d.2), count := s.count + 1 }

/-- r1cs_writer.rs:235-243 `HeaderData`. -/
structure Header where
  field : Int
  totalWires : Nat
  publicOutputs : Nat
  publicInputs : Nat
  privateInputs : Nat
  labels : Nat
  constraints : Nat
  deriving DecidableEq, Repr

/-- r1cs_writer.rs:246-269 `HeaderSection::write_section`. -/
def writeHeader (s : Sec) (d : Header) : Sec :=
  let s := s.write (asBytes s.fieldSize 4)
  let s := s.write (asBytes d.field s.fieldSize)
  let s := s.write (asBytes d.totalWires 4)
  let s := s.write (asBytes d.publicOutputs 4)
  let s := s.write (asBytes d.publicInputs 4)
  let s := s.write (asBytes d.privateInputs 4)
  let s := s.write (asBytes d.labels 8)
  s.write (asBytes d.constraints 4)

/-- r1cs_writer.rs:328-341 `write_signal`, `write_signal_usize`. -/
def writeSignal (s : Sec) (signal : Nat) : Sec := s.write (format (toBytesLE signal) 8)

/-- One entry of the custom gates used section (r1cs_writer.rs:366-388). -/
def writeUsage (s : Sec) (g : List Nat × List Int) : Sec :=
  let s := s.write (g.1 ++ [0], g.1.length + 1)
  let s := s.write (asBytes g.2.length 4)
  g.2.foldl (fun s p => s.write (asBytes p s.fieldSize)) s

/-- r1cs_writer.rs:358-391 `write_custom_gates_usages`. -/
def writeUsages (s : Sec) (data : List (List Nat × List Int)) : Sec :=
  data.foldl writeUsage (s.write (asBytes data.length 4))

/-- One entry of the custom gates applied section (r1cs_writer.rs:416-438). -/
def writeApplication (s : Sec) (g : Nat × List Nat) : Sec :=
  let s := s.write (asBytes g.1 4)
  let s := s.write (asBytes g.2.length 4)
  g.2.foldl (fun s (x : Nat) => s.write (asBytes x 8)) s

/-- r1cs_writer.rs:408-441 `write_custom_gates_applications`. -/
def writeApplications (s : Sec) (data : List (Nat × List Nat)) : Sec :=
  data.foldl writeApplication (s.write (asBytes data.length 4))

/-- Everything that goes into a file. -/
structure Data where
  header : Header
  constraints : List Triple
  signals : List Nat
  custom : Option (List (List Nat × List Int) × List (Nat × List Nat))

/-- r1cs_writer.rs:156-167 `R1CSWriter::new` with 93-101 `initialize_file`. -/
def newFile (custom : Bool) : List Nat := magic ++ version ++ [if custom then 5 else 3, 0, 0, 0]

/-- constraint_list/src/r1cs_porting.rs:6-10 (also dag/src/r1cs_porting.rs:7-11): bytes per field element. -/
def fieldSize (field : Int) : Nat :=
  let bits := field.natAbs.size
  if bits % 64 = 0 then bits / 8 else (bits / 64 + 1) * 8

/-- The calls of constraint_list/src/r1cs_porting.rs:19-121 (and dag/src/r1cs_porting.rs:13-109) in order. -/
def writeFile (d : Data) : List Nat :=
  let fs := fieldSize d.header.field
  let file := newFile d.custom.isSome
  let file := (d.constraints.foldl writeConstraint (startSection file fs 2)).finish
  let file := (writeHeader (startSection file fs 1) d.header).finish
  let file := (d.signals.foldl writeSignal (startSection file fs 3)).finish
  match d.custom with
  | none => file
  | some (used, applied) =>
    let file := (writeUsages (startSection file fs 4) used).finish
    (writeApplications (startSection file fs 5) applied).finish

/-! ## Reader -/

/-- r1cs_reader.rs:20-26 `R1CSParsingError`, and the end of the file met by `read_exact`. -/
inductive RErr where
  | eof
  | magic
  | version
  | sectionHeader
  | sectionType
  | notPresent
  deriving DecidableEq, Repr


/-- `BufReader::read_exact` (external). -/
def readExact (file : List Nat) (pos n : Nat) : Except RErr ((List Nat) × Nat) :=
  if pos + n ≤ file.length then .ok ((file.drop pos).take n, pos + n) else .error .eof

/-- r1cs_reader.rs:44-48 `read_bigint`. -/
def readInt (file : List Nat) (pos size : Nat) : Except RErr (Nat × Nat) := do
  let (buffer, pos) ← readExact file pos size
  .ok (fromBytesLE buffer, pos)

/-- r1cs_reader.rs:50-59 `read_section`: check the type, skip the size. -/
def readSection (file : List Nat) (pos t : Nat) : Except RErr (Unit × Nat) := do
  let (buffer, pos) ← readExact file pos 4
  if buffer = sectionType t then .ok ((), pos + 8) else .error .sectionHeader

/-- r1cs_reader.rs:78-83: the terms of a linear combination. -/
def readTerms (file : List Nat) (fieldSize : Nat) : Nat → Nat → CMap (List Nat) → Except RErr (CMap (List Nat) × Nat)
  | 0, pos, m => .ok (m, pos)
  | n + 1, pos, m => do
    let (id, pos) ← readExact file pos 4
    let (factor, pos) ← readInt file pos fieldSize
    readTerms file fieldSize n pos (CMap.insert m id factor)

/-- r1cs_reader.rs:69-85 `read_linear_combination_block`. -/
def readBlock (file : List Nat) (fieldSize pos : Nat) : Except RErr ((CMap (List Nat)) × Nat) := do
  let (n, pos) ← readInt file pos 4
  readTerms file fieldSize n pos []

/-- r1cs_reader.rs:277-291: keys back to numbers. -/
def numKeys (m : CMap (List Nat)) : CMap Nat := m.foldl (fun acc e => CMap.insert acc (fromBytesLE e.1) e.2) []

/-- r1cs_reader.rs:87-98 `read_constraint` and 274-294 `read_constraint_usize`. -/
def readConstraint (file : List Nat) (fieldSize pos : Nat) : Except RErr (Triple × Nat) := do
  let (a, pos) ← readBlock file fieldSize pos
  let (b, pos) ← readBlock file fieldSize pos
  let (c, pos) ← readBlock file fieldSize pos
  .ok ((numKeys a, numKeys b, numKeys c), pos)

/-- Read `n` items one after the other. -/
def readMany {α : Type} (item : Nat → Except RErr (α × Nat)) : Nat → Nat → Except RErr (List α × Nat)
  | 0, pos => .ok ([], pos)
  | n + 1, pos => do
    let (x, pos) ← item pos
    let (xs, pos) ← readMany item n pos
    .ok (x :: xs, pos)

/-- r1cs_reader.rs:241-261 `HeaderSection::read_section`: field size and header. -/
def readHeader (file : List Nat) (pos : Nat) : Except RErr ((Nat × Header) × Nat) := do
  let (fs, pos) ← readInt file pos 4
  let (field, pos) ← readInt file pos fs
  let (totalWires, pos) ← readInt file pos 4
  let (publicOutputs, pos) ← readInt file pos 4
  let (publicInputs, pos) ← readInt file pos 4
  let (privateInputs, pos) ← readInt file pos 4
  let (labels, pos) ← readInt file pos 8
  let (constraints, pos) ← readInt file pos 4
  .ok ((fs, ⟨field, totalWires, publicOutputs, publicInputs, privateInputs, labels, constraints⟩), pos)

/-- r1cs_reader.rs:348-357: a zero-terminated name; the fuel is the number of bytes left. -/
def readName (file : List Nat) : Nat → Nat → Except RErr (List Nat × Nat)
  | 0, _ => .error .eof
  | fuel + 1, pos => do
    let (b, pos) ← readExact file pos 1
    if b = [0] then .ok ([], pos)
    else do
      let (name, pos) ← readName file fuel pos
      .ok (b ++ name, pos)

/-- One used custom gate (r1cs_reader.rs:348-365). -/
def readUsage (file : List Nat) (fieldSize pos : Nat) : Except RErr ((List Nat × List Int) × Nat) := do
  let (name, pos) ← readName file (file.length + 1) pos
  let (n, pos) ← readInt file pos 4
  let (params, pos) ← readMany (fun pos => readInt file pos fieldSize) n pos
  .ok ((name, params.map fun (x : Nat) => (x : Int)), pos)

/-- r1cs_reader.rs:343-369 `read_custom_gates_usages`. -/
def readUsages (file : List Nat) (fieldSize pos : Nat) : Except RErr ((List (List Nat × List Int)) × Nat) := do
  let (n, pos) ← readInt file pos 4
  readMany (fun pos => readUsage file fieldSize pos) n pos

/-- One applied custom gate (r1cs_reader.rs:392-400). -/
def readApplication (file : List Nat) (pos : Nat) : Except RErr ((Nat × List Nat) × Nat) := do
  let (index, pos) ← readInt file pos 4
  let (n, pos) ← readInt file pos 4
  let (signals, pos) ← readMany (fun pos => readInt file pos 8) n pos
  .ok ((index, signals), pos)

/-- r1cs_reader.rs:387-404 `read_custom_gates_applications`. -/
def readApplications (file : List Nat) (pos : Nat) : Except RErr ((List (Nat × List Nat)) × Nat) := do
  let (n, pos) ← readInt file pos 4
  readMany (fun pos => readApplication file pos) n pos

/-- r1cs_reader.rs:464-476: the start of every section; the first argument is the number of sections left. -/
def scan (file : List Nat) (nSections : Nat) : Nat → Nat → List (Nat × Nat) → Except RErr (List (Nat × Nat))
  | 0, _, starts => .ok starts
  | left + 1, pos, starts => do
    let (buffer, pos1) ← readExact file pos 4
    let t := buffer.headD 0
    let (size, pos2) ← readInt file pos1 8
    if 1 ≤ t ∧ t ≤ nSections then scan file nSections left (pos2 + size) ((t, pos) :: starts)
    else .error .sectionType

/-- `section_starts.get` (the newest entry of a type counts). -/
def startOf (starts : List (Nat × Nat)) (t : Nat) : Except RErr Nat :=
  match starts.find? fun e => decide (e.1 = t) with
  | none => .error .notPresent
  | some e => .ok e.2

/-- r1cs_reader.rs:482-496 `read_initialization`: the number of sections. -/
def readInit (file : List Nat) : Except RErr (Nat × Nat) := do
  let (m, pos) ← readExact file 0 4
  if m ≠ magic then .error .magic
  else do
    let (v, pos) ← readExact file pos 4
    if v ≠ version then .error .version
    else do
      let (b, pos) ← readExact file pos 4
      .ok (b.headD 0, pos)

/-- r1cs_reader.rs:540-562: the custom gate sections. -/
def readCustom (file : List Nat) (fieldSize : Nat) (starts : List (Nat × Nat)) :
    Except RErr (List (List Nat × List Int) × List (Nat × List Nat)) := do
  let start ← startOf starts 4
  let (_, pos) ← readSection file start 4
  let (used, _) ← readUsages file fieldSize pos
  let start ← startOf starts 5
  let (_, pos) ← readSection file start 5
  let (applied, _) ← readApplications file pos
  .ok (used, applied)

/-- r1cs_reader.rs:453-480 `read_r1cs` with 498-564 `read_sections`.  The sizes read back by `end_section` are not used. -/
def readFile (file : List Nat) : Except RErr Data := do
  let (n, pos) ← readInit file
  let starts ← scan file n n pos []
  let start ← startOf starts 1
  let (_, pos) ← readSection file start 1
  let ((fs, header), _) ← readHeader file pos
  let start ← startOf starts 2
  let (_, pos) ← readSection file start 2
  let (constraints, _) ← readMany (fun pos => readConstraint file fs pos) header.constraints pos
  let start ← startOf starts 3
  let (_, pos) ← readSection file start 3
  let (signals, _) ← readMany (fun pos => readInt file pos 8) header.totalWires pos
  if n = 5 then do
    let custom ← readCustom file fs starts
    .ok ⟨header, constraints, signals, some custom⟩
  else .ok ⟨header, constraints, signals, none⟩

end Verif.R1cs
