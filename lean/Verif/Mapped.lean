import Verif.Address

/-!
# Run-time access to signals of heterogeneous arrays of components

When the components of an array are instances with different parameters (`ClusterType::Mixed`), the position of
`c[i].x[j].f[k]` inside the component is computed by the witness program from tables: for every such instance the list of
its inputs and outputs, for every bus the list of its fields.  This file models how the compiler builds the tables, how the
C++ program reads them back, the wasm memory image, and the code both programs use to compute the position.

Positions and table entries are unbounded integers here (the programs use 32-bit words; the compiler refuses wasm tables
with larger numbers, `wasm_hexa`).
-/

namespace Verif.Mapped

open Verif.ModArith (Fail Res)

/-- `IODef` and `FieldData` (code_producers/src/components/mod.rs:4-30): offset, all dimensions, size of one element, bus.  The
signal code and the field name are not used by the accesses. -/
structure Def where
  offset : Nat
  lengths : List Nat
  size : Nat
  bus : Option Nat
  deriving DecidableEq, Repr

/-! ## Building the tables -/

/-- What the tables need of a `Wire` (compiler/src/hir/very_concrete_program.rs:20-100): `io` says it is no intermediate. -/
structure Wire where
  name : String
  io : Bool
  localId : Nat
  lengths : List Nat
  size : Nat
  bus : Option Nat
  deriving DecidableEq, Repr

/-- translate.rs:67-70 and 77-86: the code of a signal is its position among the wires of the first instance of the
template; `unwrap` on an unknown name panics. -/
def signalId (first : List Wire) (name : String) : Res Nat :=
  match first.findIdx? (fun w => w.name = name) with
  | some i => .ok i
  | none => .error .panic

/-- build.rs:498-528 `build_input_output_list`: code and definition of every input and output of an instance; `first` are the
wires of the first instance of its template.  The division by the number of elements panics for empty arrays. -/
def ioList (first : List Wire) : List Wire → Res (List (Nat × Def))
  | [] => .ok []
  | w :: ws =>
    if w.lengths.foldl (· * ·) 1 = 0 then .error .panic
    else if w.io then
      match signalId first w.name with
      | .error e => .error e
      | .ok c =>
        match ioList first ws with
        | .error e => .error e
        | .ok r => .ok ((c, ⟨w.localId, w.lengths, w.size / w.lengths.foldl (· * ·) 1, w.bus⟩) :: r)
    else ioList first ws

/-! ## The tables of the C++ program -/

/-- c_code_generator.rs:700-738: the 32-bit words of one definition. -/
def encDef (d : Def) : List Nat :=
  [d.offset, d.lengths.length - 1] ++ d.lengths.tail ++ [d.size, d.bus.getD 0]

/-- c_code_generator.rs:695-739, 744-790: the number of definitions, then the definitions. -/
def encDefs (ds : List Def) : List Nat := ds.length :: ds.flatMap encDef

/-- c_code_generator.rs:681-740, 742-792 and 844-850: instance numbers, their definitions, then the fields of all buses
(written only when there is some instance). -/
def encTables (io : List (Nat × List Def)) (buses : List (List Def)) : List Nat :=
  io.map (·.1) ++ io.flatMap (fun e => encDefs e.2) ++ (if io = [] then [] else buses.flatMap encDefs)

/-- `IOFieldDef` (code_producers/src/c_elements/common/circom.hpp:23-29). -/
structure RDef where
  offset : Nat
  lengths : List Nat
  size : Nat
  bus : Nat
  deriving DecidableEq, Repr

/-- What remains of a definition at run time: all dimensions but the first, bus 0 when there is none. -/
def Def.run (d : Def) : RDef := ⟨d.offset, d.lengths.tail, d.size, d.bus.getD 0⟩

/-- main.cpp:77-87, 100-110: one definition; `none` when the data ends too early. -/
def readDef : List Nat → Option (RDef × List Nat)
  | o :: l :: rest =>
    match rest.drop l with
    | s :: b :: rest' => if (rest.take l).length = l then some (⟨o, rest.take l, s, b⟩, rest') else none
    | _ => none
  | _ => none

/-- main.cpp:77-87, 100-110: `n` definitions. -/
def readDefs : Nat → List Nat → Option (List RDef × List Nat)
  | 0, ws => some ([], ws)
  | n + 1, ws =>
    match readDef ws with
    | none => none
    | some (d, ws1) =>
      match readDefs n ws1 with
      | none => none
      | some (ds, ws2) => some (d :: ds, ws2)

/-- main.cpp:71-93, 95-116: a counted list of definitions copied into an array with room for `cap` of them (`none`: room for as
many as there are).  Writing beyond the allocated array is undefined behaviour, here `none`. -/
def readPair (cap : Option Nat) : List Nat → Option (List RDef × List Nat)
  | n :: ws => if n ≤ cap.getD n then readDefs n ws else none
  | [] => none

/-- main.cpp:70-93: the definitions of all instances. -/
def readIo : List Nat → List Nat → Option (List (Nat × List RDef) × List Nat)
  | [], ws => some ([], ws)
  | i :: is, ws =>
    match readPair none ws with
    | none => none
    | some (ds, ws1) =>
      match readIo is ws1 with
      | none => none
      | some (r, ws2) => some ((i, ds) :: r, ws2)

/-- main.cpp:94-116: the fields of `n` buses; the array of every bus is allocated for 10 fields (`calloc(10, …)`, line 112). -/
def readBuses : Nat → List Nat → Option (List (List RDef) × List Nat)
  | 0, ws => some ([], ws)
  | n + 1, ws =>
    match readPair (some 10) ws with
    | none => none
    | some (ds, ws1) =>
      match readBuses n ws1 with
      | none => none
      | some (r, ws2) => some (ds :: r, ws2)

/-- main.cpp:56-118: the tables read from the data file; `nio` and `nbus` are `get_size_of_io_map()` and
`get_size_of_bus_field_map()`. -/
def readTables (nio nbus : Nat) (ws : List Nat) : Option (List (Nat × List RDef) × List (List RDef)) :=
  if nio = 0 then some ([], [])
  else
    match readIo (ws.take nio) (ws.drop nio) with
    | none => none
    | some (io, rest) =>
      match readBuses nbus rest with
      | none => none
      | some (b, _) => some (io, b)

/-! ## The tables of the wasm program -/

/-- wasm_code_generator.rs:346-372, 425-452: words of one definition; `fb` is the number of bytes of a field element. -/
def defWords (fb : Nat) (d : Def) : List Nat :=
  d.offset * fb :: ((if d.lengths ≠ [] then d.lengths.tail ++ [d.size] else []) ++ d.bus.toList)

/-- wasm_code_generator.rs:319-326, 404-411: bytes skipped for one definition. -/
def defBytes (d : Def) : Nat :=
  (if d.lengths.length = 0 then 4 else d.lengths.length * 4 + 4) + (if d.bus.isSome then 4 else 0)

/-- wasm_code_generator.rs:288-304 `generate_data_template_instance_to_io` (`none`: the instance is in no mixed array) and, with
all entries present, 382-393 `generate_data_bus_instance_to_field`. -/
def listPtrs : Nat → List (Option (List Def)) → List Nat
  | _, [] => []
  | s, some v :: r => s :: listPtrs (s + v.length * 4) r
  | s, none :: r => 0 :: listPtrs s r

/-- Inner loops of wasm_code_generator.rs:316-328, 402-413: start of each definition; returns the next position too. -/
def defPtrs : Nat → List Def → List Nat × Nat
  | pos, [] => ([], pos)
  | pos, d :: ds => (pos :: (defPtrs (pos + defBytes d) ds).1, (defPtrs (pos + defBytes d) ds).2)

/-- wasm_code_generator.rs:306-335 `generate_data_io_signals_to_info`, 395-416 `generate_data_field_to_info`. -/
def infoPtrs : Nat → List (Option (List Def)) → List Nat
  | _, [] => []
  | pos, some v :: r => (defPtrs pos v).1 ++ infoPtrs (defPtrs pos v).2 r
  | pos, none :: r => infoPtrs pos r

/-- wasm_code_generator.rs:337-379 `generate_data_io_signals_info`, 418-455 `generate_data_field_info`. -/
def infoWords (fb : Nat) : List (Option (List Def)) → List Nat
  | [] => []
  | some v :: r => v.flatMap (defWords fb) ++ infoWords fb r
  | none :: r => infoWords fb r

/-- wasm_elements/mod.rs:260-266, 288-296: number of definitions. -/
def countDefs : List (Option (List Def)) → Nat
  | [] => 0
  | some v :: r => v.length + countDefs r
  | none :: r => countDefs r

/-- wasm_elements/mod.rs:267-285, 298-314: size of the definitions in bytes. -/
def infoSize : List (Option (List Def)) → Nat
  | [] => 0
  | some v :: r => (v.map fun d => ((if d.lengths.length = 0 then 1 else d.lengths.length + 1) +
      (if d.bus.isSome then 1 else 0)) * 4).sum + infoSize r
  | none :: r => infoSize r

/-- wasm_elements/mod.rs:383-385 `get_bus_instance_to_field_start`. -/
def busStart (base : Nat) (io : List (Option (List Def))) : Nat :=
  base + io.length * 4 + countDefs io * 4 + infoSize io

/-- The six data segments (wasm_code_generator.rs:711-745), which lie one after the other from
`get_template_instance_to_io_signal_start` = `base` on (wasm_elements/mod.rs:368-395). -/
def image (base fb : Nat) (io : List (Option (List Def))) (buses : List (List Def)) : List Nat :=
  listPtrs (base + io.length * 4) io
  ++ infoPtrs (base + io.length * 4 + countDefs io * 4) io
  ++ infoWords fb io
  ++ listPtrs (busStart base io + buses.length * 4) (buses.map some)
  ++ infoPtrs (busStart base io + buses.length * 4 + countDefs (buses.map some) * 4) (buses.map some)
  ++ infoWords fb (buses.map some)

/-- Word of memory at a byte address, `ws` being the words stored from `base` on. -/
def memOf (base : Nat) (ws : List Nat) (a : Int) : Option Int :=
  if (base : Int) ≤ a ∧ (a - base) % 4 = 0 then (ws[((a - base) / 4).toNat]?).map fun n : Nat => (n : Int) else none

/-! ## Code of the wasm program -/

/-- The wasm instructions used in addresses. -/
inductive W where
  | const (n : Int)
  | add
  | mul
  | load (off : Nat)
  | getIo
  | teeIo
  deriving Repr

/-- An index expression of an access: its wasm code and the value (in signals) it has. -/
structure Ix where
  code : List W
  val : Int
  deriving Repr

/-- An index with a known value. -/
def Ix.known (v : Int) : Ix := ⟨[.const v], v⟩

/-- One access of `LocationRule::Mapped` (intermediate_representation/types.rs, `AccessType`): indices with the number of
dimensions of the symbol, or a field number. -/
inductive Acc where
  | indexed (idx : List Ix) (dim : Nat)
  | qualified (field : Nat)
  deriving Repr

/-- load_bucket.rs:155-163 (the same in store_bucket.rs:173-181, call_bucket.rs:262-270): the indices after the first one;
returns the code and `infopos`. -/
def wIdxLoop : Nat → List Ix → List W × Nat
  | pos, [] => ([], pos)
  | pos, v :: vs =>
    ([.getIo, .load (pos + 4), .mul] ++ v.code ++ [.add] ++ (wIdxLoop (pos + 4) vs).1, (wIdxLoop (pos + 4) vs).2)

/-- load_bucket.rs:173-180: the loop over the missing dimensions after the first missing one. -/
def wMissLoop : Nat → Nat → List W × Nat
  | 0, pos => ([], pos)
  | n + 1, pos => ([.getIo, .load (pos + 4), .mul] ++ (wMissLoop n (pos + 4)).1, (wMissLoop n (pos + 4)).2)

/-- load_bucket.rs:165-180: code for `diff` missing dimensions (`if diff > 0`). -/
def wMiss (diff pos : Nat) : List W × Nat :=
  if diff > 0 then ([.getIo, .load (pos + 4)] ++ (wMissLoop (diff - 1) (pos + 4)).1, (wMissLoop (diff - 1) (pos + 4)).2)
  else ([], pos)

/-- The first access of a list is a field access. -/
def startsQual : List Acc → Bool
  | .qualified _ :: _ => true
  | _ => false

/-- load_bucket.rs:141-224 (`while idxpos < indexes.len()`), repeated in store_bucket.rs:161-242 and call_bucket.rs:250-331; `assert!`
failures and indexing an empty list panic. -/
def wAccesses (fb bs : Nat) : List Acc → Res (List W)
  | [] => .ok []
  | .indexed idx dim :: rest =>
    match idx with
    | [] => .error .panic
    | v :: vs =>
      if dim < (v :: vs).length then .error .panic
      else if dim - (v :: vs).length > 0 ∧ rest ≠ [] then .error .panic
      else if rest ≠ [] ∧ startsQual rest = false then .error .panic
      else
        match wAccesses fb bs rest with
        | .error e => .error e
        | .ok code =>
          let loop := wIdxLoop 0 vs
          let miss := wMiss (dim - (v :: vs).length) loop.2
          .ok (v.code ++ loop.1 ++ miss.1 ++ [.const fb, .getIo, .load (miss.2 + 4), .mul]
            ++ (if dim - (v :: vs).length > 0 then [.mul] else []) ++ [.mul, .add]
            ++ (if rest ≠ [] then [.getIo, .load (miss.2 + 8)] else []) ++ code)
  | .qualified f :: rest =>
    match wAccesses fb bs rest with
    | .error e => .error e
    | .ok code =>
      .ok ([.const 4, .mul, .load bs, .load (f * 4)] ++ (if rest ≠ [] then [.teeIo] else []) ++ [.load 0, .add]
        ++ (if startsQual rest then [.getIo, .load 4] else []) ++ code)

/-- load_bucket.rs:116-224: from the template number on the stack to the offset, in bytes, inside the component; `ts` is
`get_template_instance_to_io_signal_start`, `bs` is `get_bus_instance_to_field_start`. -/
def wMapped (fb ts bs code : Nat) (accs : List Acc) : Res (List W) :=
  match wAccesses fb bs accs with
  | .error e => .error e
  | .ok body =>
    .ok ([.const 4, .mul, .load ts, .load (code * 4)] ++
      (if accs.length = 0 then [.load 0]
       else [.teeIo, .load 0] ++ (if startsQual accs then [.getIo, .load 4] else []) ++ body))

/-- One wasm instruction on the operand stack (top first) and the local `io_info`. -/
def wStep (mem : Int → Option Int) : W → List Int × Int → Option (List Int × Int)
  | .const n, (st, io) => some (n :: st, io)
  | .add, (b :: a :: st, io) => some ((a + b) :: st, io)
  | .mul, (b :: a :: st, io) => some ((a * b) :: st, io)
  | .load off, (a :: st, io) =>
    match mem (a + off) with
    | some v => some (v :: st, io)
    | none => none
  | .getIo, (st, io) => some (io :: st, io)
  | .teeIo, (a :: st, _) => some (a :: st, a)
  | _, _ => none

/-- A sequence of wasm instructions. -/
def wRun (mem : Int → Option Int) : List W → List Int × Int → Option (List Int × Int)
  | [], s => some s
  | i :: is, s =>
    match wStep mem i s with
    | none => none
    | some s' => wRun mem is s'

/-! ## Code of the C++ program -/

/-- Tokens of the arithmetic expressions that the C++ producer assembles as text.  `num v` is an operand without operators of
its own at the outer level: a literal, `map_index_aux[i]`, `cur_def->lengths[i]`, `(a + b)`, `Fr_toInt(…)`; it carries the
value of that operand. -/
inductive Tok where
  | num (v : Int)
  | lp
  | rp
  | star
  | plus
  deriving DecidableEq, Repr

/-- State of a left to right evaluation of a C expression: sum of the finished terms, product of the factors of the current
term, the enclosing parentheses, and whether an operand is expected. -/
structure CSt where
  sum : Int
  prod : Int
  stk : List (Int × Int)
  opnd : Bool

/-- Meaning of C expressions made of `+`, `*` and parentheses: `*` binds tighter than `+`. -/
def cStep (s : CSt) : Tok → Option CSt
  | .num v => if s.opnd then some ⟨s.sum, s.prod * v, s.stk, false⟩ else none
  | .star => if s.opnd then none else some ⟨s.sum, s.prod, s.stk, true⟩
  | .plus => if s.opnd then none else some ⟨s.sum + s.prod, 1, s.stk, true⟩
  | .lp => if s.opnd then some ⟨0, 1, (s.sum, s.prod) :: s.stk, true⟩ else none
  | .rp =>
    if s.opnd then none
    else match s.stk with
      | (a, b) :: r => some ⟨a, b * (s.sum + s.prod), r, false⟩
      | [] => none

/-- A sequence of tokens. -/
def cRun : List Tok → CSt → Option CSt
  | [], s => some s
  | t :: ts, s =>
    match cStep s t with
    | none => none
    | some s' => cRun ts s'

/-- Value of a C expression. -/
def cVal (ts : List Tok) : Option Int :=
  match cRun ts ⟨0, 1, [], true⟩ with
  | some s => if s.opnd = false ∧ s.stk = [] then some (s.sum + s.prod) else none
  | none => none

/-- Which of the three producers writes the code. -/
inductive Site where
  | load
  | store
  | call
  deriving DecidableEq, Repr

/-- `cur_def->lengths[i]`; reading beyond the array is undefined behaviour, here `none`. -/
def lenAt (d : RDef) (i : Nat) : Option Tok := (d.lengths[i]?).map fun n : Nat => Tok.num n

/-- load_bucket.rs:282-287, store_bucket.rs:533-539, call_bucket.rs:592-599: the indices after the first one (`i` is the loop
variable); `load` writes the length in parentheses. -/
def cIdxLoop (site : Site) (d : RDef) : Nat → List Tok → List Int → Option (List Tok)
  | _, t, [] => some t
  | i, t, v :: vs =>
    match lenAt d (i - 1) with
    | none => none
    | some l =>
      cIdxLoop site d (i + 1)
        ([.lp] ++ t ++ [.rp, .star] ++ (if site = .load then [.lp, l, .rp] else [l]) ++ [.plus, .num v]) vs

/-- load_bucket.rs:293-296, store_bucket.rs:545-548, call_bucket.rs:605-608: `n` missing dimensions from loop variable `i` on. -/
def cMissLoop (d : RDef) : Nat → Nat → List Tok → Option (List Tok)
  | 0, _, t => some t
  | n + 1, i, t =>
    match lenAt d (i - 1) with
    | none => none
    | some l => cMissLoop d n (i + 1) (t ++ [.star, l])

/-- load_bucket.rs:300, store_bucket.rs:551, call_bucket.rs:611: multiplication by the size of the elements. -/
def cSize (site : Site) (d : RDef) (t : List Tok) : List Tok :=
  if site = .load then [.lp] ++ t ++ [.rp, .star, .num d.size] else t ++ [.star, .num d.size]

/-- load_bucket.rs:277-300, store_bucket.rs:524-552, call_bucket.rs:583-612: the expression for one list of indices; `last`
says that no access follows.  The outer option is the C++ program, the panics are failed asserts of the compiler. -/
def cIndexed (site : Site) (d : RDef) (idx : List Int) (dim : Nat) (last : Bool) : Res (Option (List Tok)) :=
  match idx with
  | [] => .error .panic
  | v :: vs =>
    if dim < (v :: vs).length then .error .panic
    else if dim - (v :: vs).length > 0 ∧ last = false then .error .panic
    else
      match cIdxLoop site d 1 [.num v] vs with
      | none => .ok none
      | some t =>
        match cMissLoop d (dim - (v :: vs).length) (v :: vs).length t with
        | none => .ok none
        | some t' => .ok (some (cSize site d t'))

/-- load_bucket.rs:273-312, store_bucket.rs:522-566, call_bucket.rs:581-626: offset added by the accesses, `d` being `cur_def`.
The outer result is the compiler, the inner one the program (`none`: undefined behaviour). -/
def cAccesses (site : Site) (buses : List (List RDef)) (d : RDef) : List Acc → Res (Option Int)
  | [] => .ok (some 0)
  | .indexed idx dim :: rest =>
    match cIndexed site d (idx.map Ix.val) dim rest.isEmpty, cAccesses site buses d rest with
    | .ok (some t), .ok (some r) =>
      match cVal t with
      | some v => .ok (some (v + r))
      | none => .ok none
    | .error e, _ => .error e
    | _, .error e => .error e
    | _, _ => .ok none
  | .qualified f :: rest =>
    match buses[d.bus]? with
    | none => .ok none
    | some fs =>
      match fs[f]? with
      | none => .ok none
      | some d' =>
        match cAccesses site buses d' rest with
        | .ok (some r) => .ok (some ((d'.offset : Int) + r))
        | .ok none => .ok none
        | .error e => .error e

/-- load_bucket.rs:262-313: offset of the signal plus the accesses, `d` being entry `signal_code` of the instance. -/
def cMapped (site : Site) (buses : List (List RDef)) (d : RDef) (accs : List Acc) : Res (Option Int) :=
  match cAccesses site buses d accs with
  | .ok (some r) => .ok (some ((d.offset : Int) + r))
  | .ok none => .ok none
  | .error e => .error e

end Verif.Mapped
