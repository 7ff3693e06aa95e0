import Verif.HashMap

/-!
Model of the way from a declared input to the signals a user sets: the layout of buses
(`constraint_generation/src/execution_data/executed_bus.rs:109-173`,
`compiler/src/circuit_design/build.rs:601-625`), the list of input names of the main component
(`build.rs:300-429`), and the loading of values in the C++ calculator
(`code_producers/src/c_elements/common/calcwit.cpp:71-103`, `main.cpp:243-288`).

A name is a list of segments, written out by `render`. The JSON text has been read into pairs of a name
and a list of field elements (`qualify_input` and `json2FrElements` of main.cpp are in `JsonIn`).
-/

namespace Verif.Inputs

open Verif.HashMap

/-- Failures of the compiler: an index out of range, a division by zero, a failed `assert!`; the last
stands for a recursion deeper than the bound. -/
inductive InErr where
  | index | divByZero | assertFailed | outOfFuel
  deriving DecidableEq, Repr

/-- The product of the dimensions (the loops and folds over dimensions all over build.rs). -/
def prod (dims : List Nat) : Nat := dims.foldl (fun p c => p * c) 1

/-- executed_bus.rs:14-18 `WireData` with the connexion of a bus field: the bus it is of. -/
structure Field where
  name : String
  dims : List Nat
  bus : Option Nat
  deriving DecidableEq, Repr

/-- very_concrete_program.rs:129-135 `FieldInfo`, with the name it is stored under. -/
structure FInfo where
  name : String
  dims : List Nat
  size : Nat
  offset : Nat
  bus : Option Nat
  deriving DecidableEq, Repr

/-- The size of one element of a field: executed_bus.rs:124 (signal) and 141-147 (bus). -/
def unitSize (size : Nat → Except InErr Nat) (f : Field) : Except InErr Nat :=
  match f.bus with
  | none => .ok 1
  | some b => size b

/-- executed_bus.rs:119-163, the loop over the fields; `size` is the size of a bus. The map of fields is
a list in the order of `field_id`: field names of a bus are distinct. Returns the fields and the total
size. -/
def layFields (size : Nat → Except InErr Nat) : List Field → Nat → Except InErr (List FInfo × Nat)
  | [], off => .ok ([], off)
  | f :: fs, off =>
    match unitSize size f with
    | .error e => .error e
    | .ok s =>
      match layFields size fs (off + f.dims.foldl (fun p c => p * c) s) with
      | .error e => .error e
      | .ok (is, total) => .ok (⟨f.name, f.dims, f.dims.foldl (fun p c => p * c) s, off, f.bus⟩ :: is, total)

/-- executed_bus.rs:109-173, `build_bus_info`: the fields of a bus and its size. The table only saves
recomputation and is left out. -/
def buildBus (buses : List (List Field)) : Nat → Nat → Except InErr (List FInfo × Nat)
  | 0, _ => .error .outOfFuel
  | fuel + 1, b =>
    match buses[b]? with
    | none => .error .index
    | some fields =>
      layFields (fun b' => match buildBus buses fuel b' with
        | .error e => .error e
        | .ok (_, n) => .ok n) fields 0

/-- components/mod.rs:24-30 `FieldData`. -/
structure FData where
  name : String
  dims : List Nat
  size : Nat
  offset : Nat
  bus : Option Nat
  deriving DecidableEq, Repr

/-- build.rs:606-620, the loop over the fields of a bus. -/
def fieldData : List FInfo → Except InErr (List FData)
  | [] => .ok []
  | f :: fs =>
    if prod f.dims = 0 then .error .divByZero
    else
      match fieldData fs with
      | .error e => .error e
      | .ok ds => .ok (⟨f.name, f.dims, f.size / prod f.dims, f.offset, f.bus⟩ :: ds)

/-- build.rs:604-623, the loop over the buses. -/
def fieldMapFrom (buses : List (List Field)) (fuel : Nat) : List Nat → Except InErr (List (List FData))
  | [] => .ok []
  | b :: bs =>
    match buildBus buses fuel b with
    | .error e => .error e
    | .ok (fields, _) =>
      match fieldData fields with
      | .error e => .error e
      | .ok d =>
        match fieldMapFrom buses fuel bs with
        | .error e => .error e
        | .ok ds => .ok (d :: ds)

/-- build.rs:601-625, `get_info_buses`, for all buses. -/
def fieldMap (buses : List (List Field)) (fuel : Nat) : Except InErr (List (List FData)) :=
  fieldMapFrom buses fuel (List.range buses.length)

/-- build.rs:337-343, the two loops of `get_accesses`; the number counts the iterations left. -/
def accLoop (res1 : List (List Nat × Nat)) (elems : Nat) : Nat → Nat → Nat → List (List Nat × Nat)
  | 0, _, _ => []
  | k + 1, i, jump =>
    res1.map (fun r => (i :: r.1, jump + r.2)) ++ accLoop res1 elems k (i + 1) (jump + elems)

/-- build.rs:324-347, `get_accesses`; an access is its list of indices. -/
def accesses : List Nat → List (List Nat × Nat)
  | [] => [([], 0)]
  | d :: ds => accLoop (accesses ds) (prod ds) d 0 0

/-- A segment of a name: `.f` or `[i]`. -/
inductive Seg where
  | field (name : String)
  | idx (i : Nat)
  deriving DecidableEq, Repr

/-- build.rs:340 and 352. -/
def renderSeg : Seg → String
  | .field n => "." ++ n
  | .idx i => "[" ++ Nat.repr i ++ "]"

/-- The name as text: build.rs:340, 352, 359, 392. -/
def render (base : String) (path : List Seg) : String :=
  path.foldl (fun s g => s ++ renderSeg g) base

/-- An entry of the list of input names (components/mod.rs:14-20, `InputInfo`); the path is relative to
the declared name. -/
structure Leaf where
  path : List Seg
  start : Nat
  size : Nat
  deriving DecidableEq, Repr

/-- build.rs:358-362, the loop over the accesses to an array of buses; `size` is the size of an element
and `rec` the recursive call. -/
def overAccesses (rec : Nat → List Seg → Except InErr (List Leaf)) (start size : Nat)
    (path : List Seg) : List (List Nat × Nat) → Except InErr (List Leaf)
  | [] => .ok []
  | (a, s) :: as =>
    match rec (start + s * size) (path ++ a.map Seg.idx) with
    | .error e => .error e
    | .ok x =>
      match overAccesses rec start size path as with
      | .error e => .error e
      | .ok y => .ok (x ++ y)

/-- build.rs:352-379, the names under one field. -/
def fieldLeaves (rec : Nat → Nat → List Seg → Except InErr (List Leaf)) (start : Nat)
    (path : List Seg) (io : FData) : Except InErr (List Leaf) :=
  match io.bus with
  | some b => overAccesses (rec b) (start + io.offset) io.size (path ++ [Seg.field io.name])
      (accesses io.dims)
  | none => .ok [⟨path ++ [Seg.field io.name], start + io.offset,
      io.dims.foldl (fun p c => p * c) io.size⟩]

/-- build.rs:351-380, the loop over the fields in `get_qualified_names`. -/
def overFields (rec : Nat → Nat → List Seg → Except InErr (List Leaf)) (start : Nat)
    (path : List Seg) : List FData → Except InErr (List Leaf)
  | [] => .ok []
  | io :: ios =>
    match fieldLeaves rec start path io with
    | .error e => .error e
    | .ok x =>
      match overFields rec start path ios with
      | .error e => .error e
      | .ok y => .ok (x ++ y)

/-- build.rs:348-382, `get_qualified_names`. -/
def qualified (fm : List (List FData)) : Nat → Nat → Nat → List Seg → Except InErr (List Leaf)
  | 0, _, _, _ => .error .outOfFuel
  | fuel + 1, b, start, path =>
    match fm[b]? with
    | none => .error .index
    | some ios => overFields (qualified fm fuel) start path ios

/-- A declared input of the main component (build.rs:303-323). -/
structure Decl where
  name : String
  dims : List Nat
  start : Nat
  size : Nat
  bus : Option Nat
  deriving DecidableEq, Repr

/-- The entry for a name relative to its declaration. -/
def toInfo (d : Decl) (l : Leaf) : Info := ⟨render d.name l.path, l.start, l.size⟩

/-- build.rs:386-397, the leaves of a bus input. -/
def busLeaves (fm : List (List FData)) (fuel : Nat) (d : Decl) (b : Nat) : Except InErr (List Leaf) :=
  if prod d.dims = 0 then .error .divByZero
  else overAccesses (qualified fm fuel b) d.start (d.size / prod d.dims) [] (accesses d.dims)

/-- build.rs:386-400, the names under one declared input. -/
def declLeaves (fm : List (List FData)) (fuel : Nat) (d : Decl) : Except InErr (List Leaf) :=
  match d.bus with
  | some b => busLeaves fm fuel d b
  | none => .ok [⟨[], d.start, d.size⟩]

/-- build.rs:383-403, `get_main_input_list_with_qualifiers`. -/
def withQualifiers (fm : List (List FData)) (fuel : Nat) : List Decl → Except InErr (List Info)
  | [] => .ok []
  | d :: ds =>
    match declLeaves fm fuel d with
    | .error e => .error e
    | .ok x =>
      match withQualifiers fm fuel ds with
      | .error e => .error e
      | .ok y => .ok (x.map (toInfo d) ++ y)

/-- build.rs:416-419: the entry kept in the map for a name is the last one. -/
def lastNamed (l : List Info) (name : String) : Option Info := l.reverse.find? (fun i => i.name == name)

/-- build.rs:420-427. -/
def addWhole (l : List Info) : List Decl → Except InErr (List Info)
  | [] => .ok []
  | d :: ds =>
    match lastNamed l d.name with
    | some i =>
      if i.start = d.start ∧ i.size = d.size then addWhole l ds else .error .assertFailed
    | none =>
      match addWhole l ds with
      | .error e => .error e
      | .ok r => .ok (⟨d.name, d.start, d.size⟩ :: r)

/-- build.rs:300-429, `main_input_list`. -/
def mainInputs (fm : List (List FData)) (fuel : Nat) (ds : List Decl) : Except InErr (List Info) :=
  match withQualifiers fm fuel ds with
  | .error e => .error e
  | .ok l =>
    match addWhole l ds with
    | .error e => .error e
    | .ok r => .ok (l ++ r)

/-- Failures of the calculator while loading: the texts of calcwit.cpp and main.cpp, and an access outside
`inputSignalAssigned`, which C++ does not check. -/
inductive LoadErr where
  | noMore | notFound | exceeds | twice | tooFew | tooMany | outside
  deriving DecidableEq, Repr

variable {V : Type}

/-- calcwit.hpp, `Circom_CalcWit`: inputs still to be set, which are set, the signal memory; and the
memory at each call of `run`, latest first. -/
structure Calc (V : Type) where
  left : Nat
  isSet : Nat → Bool
  mem : Nat → V
  runs : List (Nat → V)

/-- calcwit.cpp:71-75, `tryRunCircuit`. What `run` does to the memory is not modelled: after it no input
can be set. -/
def tryRun (st : Calc V) : Calc V :=
  if st.left = 0 then { st with runs := st.mem :: st.runs } else st

/-- calcwit.cpp:77-97, `setInputSignal`. `base` is the first input signal, `total` the number of input
signals. -/
def setInput (t : List Slot) (base total : Nat) (st : Calc V) (h i : Nat) (v : V) :
    Except LoadErr (Calc V) :=
  if st.left = 0 then .error .noMore
  else
    match findC t h with
    | .error _ => .error .notFound
    | .ok pos =>
      match t[pos]? with
      | none => .error .outside
      | some e =>
        if i ≥ e.size then .error .exceeds
        else if e.start + i < base ∨ base + total ≤ e.start + i then .error .outside
        else if st.isSet (e.start + i) then .error .twice
        else .ok (tryRun
          { st with
            left := st.left - 1
            isSet := fun s => if s = e.start + i then true else st.isSet s
            mem := fun s => if s = e.start + i then v else st.mem s })

/-- main.cpp:276-286, the inner loop. -/
def setValues (t : List Slot) (base total h : Nat) : List V → Nat → Calc V → Except LoadErr (Calc V)
  | [], _, st => .ok st
  | v :: vs, i, st =>
    match setInput t base total st h i v with
    | .error e => .error e
    | .ok st' => setValues t base total h vs (i + 1) st'

/-- main.cpp:259-287, the loop over the names. -/
def loadItems (H : String → Nat) (t : List Slot) (base total : Nat) :
    List (String × List V) → Calc V → Except LoadErr (Calc V)
  | [], st => .ok st
  | (name, vs) :: items, st =>
    match findC t (H name) with
    | .error _ => .error .notFound
    | .ok pos =>
      match t[pos]? with
      | none => .error .outside
      | some e =>
        if vs.length < e.size then .error .tooFew
        else if vs.length > e.size then .error .tooMany
        else
          match setValues t base total (H name) vs 0 st with
          | .error er => .error er
          | .ok st' => loadItems H t base total items st'

/-- main.cpp:243-288, `loadJson`, on a new calculator (calcwit.cpp:26-45). -/
def loadJson (H : String → Nat) (t : List Slot) (base total : Nat) (mem0 : Nat → V)
    (items : List (String × List V)) : Except LoadErr (Calc V) :=
  let st : Calc V := ⟨total, fun _ => false, mem0, []⟩
  loadItems H t base total items (if items.length = 0 then tryRun st else st)

end Verif.Inputs
