import Verif.WFr
import Verif.HashMap
import Verif.Mapped
import Verif.Wtns

/-!
# The memory of the WebAssembly module and its interface

Model of the layout of the linear memory (`/repo/code_producers/src/wasm_elements/mod.rs`), of its first contents and of the functions exported
for the JavaScript program (`wasm_code_generator.rs` in the same directory), and of the part of `common/witness_calculator.js` that calls
them.  Line numbers without a file are of `wasm_code_generator.rs`.

Simplifications.
* Memory is a function from addresses to bytes, without an end: a program that reads or writes past the end stops.  `pages` is the size
  memory has at the start; everything the functions here touch is below `varStack` (`Props.WMem.C85_layout`).
* `create` and `run` of the main component are arbitrary functions on memory: they are the code generated for the circuit.
* The functions `Fr_*` are those of `WFr`, on the elements at the addresses given and the scratch elements; `elAt` is how an element lies in
  memory.
-/

namespace Verif.WMem

open Verif.Frg (El n64 R)
open Verif.HashMap (Info Slot hasher generate)
open Verif.Mapped (Def image countDefs infoSize busStart)

/-- The linear memory. -/
abbrev Bytes := Nat → Nat

/-- `i32.load` (`k = 4`), `i64.load` (`k = 8`) and several of these: a number of `k` bytes, lowest first. -/
def load (b : Bytes) (a : Nat) : Nat → Nat
  | 0 => 0
  | k + 1 => load b a k + 256 ^ k * (b (a + k) % 256)

/-- `i32.store`, `i64.store`. -/
def store (b : Bytes) (a k v : Nat) : Bytes := fun x => if a ≤ x ∧ x < a + k then v / 256 ^ (x - a) % 256 else b x

/-- Words copied one after the other (`Fr_copy`, `Fr_int_copy`); source and destination do not overlap or are the same. -/
def copy (b : Bytes) (dst src k : Nat) : Bytes := fun x => if dst ≤ x ∧ x < dst + k then b (src + (x - dst)) else b x

/-- A data segment. -/
def write (b : Bytes) (s : Nat × List Nat) : Bytes := fun x => if s.1 ≤ x ∧ x < s.1 + s.2.length then s.2.getD (x - s.1) 0 else b x

/-! ## Layout -/

/-- The fields of `WASMProducer` (`wasm_elements/mod.rs:7-63`) the layout depends on.  `tab` is `get_input_hash_map_entry_size` (mod.rs:211-214),
computed with floating-point numbers.  Messages and strings are lists of bytes; constants are the numbers of `field_tracking`. -/
structure Prod where
  q : Nat
  frSize : Nat
  outs : Nat
  ins : Nat
  infos : List Info
  tab : Nat
  wit : List Nat
  signals : Nat
  tree : Nat
  io : List (Option (List Def))
  buses : List (List Def)
  msgs : List (List Nat)
  strs : List (List Nat)
  consts : List Int

namespace Prod
variable (p : Prod)

/-- `size_32_bit` (`/repo/compiler/src/circuit_design/build.rs:227`). -/
def n32 : Nat := Wtns.n32 p.q

/-- Bytes of an element: `get_size_32_bits_in_memory` (mod.rs:416-418) times 4. -/
def elb : Nat := (p.n32 + 2) * 4

/-- mod.rs:326-328. -/
def rawPrime : Nat := 4 + p.frSize

/-- mod.rs:329-331. -/
def shared : Nat := 4 * p.n32 + 8 + p.rawPrime

/-- mod.rs:332-334. -/
def hashmap : Nat := 4 * p.n32 + 8 + p.shared

/-- mod.rs:335-337. -/
def counter : Nat := p.hashmap + p.tab * 16

/-- mod.rs:338-340. -/
def setMap : Nat := p.counter + 4

/-- mod.rs:341-343. -/
def witList : Nat := p.setMap + 4 * p.ins

/-- mod.rs:344-346. -/
def sigFree : Nat := p.witList + 4 * p.wit.length

/-- mod.rs:347-349. -/
def sigMem : Nat := p.sigFree + 4

/-- mod.rs:350-355. -/
def compFree : Nat := (2 + p.n32) * (4 * p.signals) + p.sigMem

/-- mod.rs:356-358. -/
def compTree : Nat := p.compFree + 4

/-- mod.rs:368-372 `get_template_instance_to_io_signal_start`. -/
def ioStart : Nat := p.compTree + p.tree * 4

/-- mod.rs:396-398 `get_message_buffer_counter_position`, after the tables of accesses (mod.rs:373-395). -/
def msgCounter : Nat :=
  busStart p.ioStart p.io + p.buses.length * 4 + countDefs (p.buses.map some) * 4 + infoSize (p.buses.map some)

/-- mod.rs:402-404; the counter has 4 bytes and the buffer 256 (mod.rs:114). -/
def msgList : Nat := p.msgCounter + 4 + 256

/-- mod.rs:405-407; a message has 240 bytes (mod.rs:115). -/
def strList : Nat := p.msgList + 240 * p.msgs.length

/-- mod.rs:409-411. -/
def constStart : Nat := p.strList + 240 * p.strs.length

/-- mod.rs:413-415. -/
def varStack : Nat := p.constStart + (p.n32 + 2) * 4 * p.consts.length

/-- Lines 249-252 `get_initial_size_of_memory`: pages of 64 KiB. -/
def pages : Nat := (p.varStack + 65535) / 65536 + 10

/-- The address of a signal (line 1138-1143, 1313-1316). -/
def sigAddr (s : Nat) : Nat := (s * p.elb % 2 ^ 32 + p.sigMem) % 2 ^ 32

end Prod

/-! ## First contents -/

/-- Lines 7-23 `wasm_hexa`: the bytes of a number, lowest first; the program stops if they do not suffice.  The text holds two digits for
each byte. -/
def hexa (k n : Nat) : Option (List Nat) :=
  if 2 * k < (Wtns.hex n).length then none
  else
    let t := List.replicate (2 * k - (Wtns.hex n).length) 0 ++ Wtns.hex n
    some ((List.range k).map fun i => 16 * t.getD (2 * i) 0 + t.getD (2 * i + 1) 0).reverse

/-- Texts for all members of a list, put together. -/
def gather {α : Type} (f : α → Option (List Nat)) : List α → Option (List Nat)
  | [] => some []
  | x :: xs =>
    match f x, gather f xs with
    | some a, some r => some (a ++ r)
    | _, _ => none

/-- Lines 270-278 `generate_data_from_hash_map`, one entry. -/
def slotBytes (e : Slot) : Option (List Nat) :=
  match hexa 8 e.hash, hexa 4 e.start, hexa 4 e.size with
  | some a, some b, some c => some (a ++ b ++ c)
  | _, _, _ => none

/-- Lines 457-529 `generate_data_constants`, one constant. -/
def constBytes (p : Prod) (s : Int) : Option (List Nat) :=
  let q : Int := p.q
  let n := ((s.tmod q) + q).tmod q
  let nn := if n > q / 2 then n - q else n
  let head :=
    if -2147483648 ≤ nn ∧ nn ≤ 2147483647 then
      (hexa 4 (if nn < 0 then 2 ^ 32 + nn else nn).toNat).map fun h => h ++ [0, 0, 0, 0x40]
    else some [0, 0, 0, 0, 0, 0, 0, 0xC0]
  match head, hexa (p.n32 * 4) ((n * R p.q).tmod q).toNat with
  | some h, some r => some (h ++ r)
  | _, _ => none

/-- Lines 749-763, 767-781: a message, cut to 239 bytes, and a zero.  (The text stands in the module between quotes as it is; that the
assembler takes a backslash in it for an escape is left out.) -/
def msgBytes (m : List Nat) : List Nat := if m.length < 240 then m ++ [0] else m.take 239 ++ [0]

/-- The segments of a list of messages from `a` on. -/
def msgSegs (a : Nat) : List (List Nat) → List (Nat × List Nat)
  | [] => []
  | m :: ms => (a, msgBytes m) :: msgSegs (a + 240) ms

/-- Lines 676-788 `generate_data_list`, after the segments `fr` of `fr-data.wat` (`compiler/src/circuit_design/circuit.rs:126-131`).  The six tables of
accesses, which follow each other, are one segment here. -/
def segments (p : Prod) (fr : List (Nat × List Nat)) : Option (List (Nat × List Nat)) :=
  match hexa 4 p.varStack, hexa (p.n32 * 4) p.q, generate hasher p.tab p.infos p.tab with
  | some top, some prime, .ok table =>
    match gather slotBytes table, gather (hexa 4) p.wit, hexa (p.n32 * 4) 1 with
    | some map, some wit, some one =>
      match gather (hexa 4) (image p.ioStart p.elb p.io p.buses), gather (constBytes p) p.consts with
      | some tables, some consts =>
        some (fr ++ [(0, top), (p.rawPrime, prime), (p.shared - 8, [0, 0, 0, 0, 0, 0, 0, 0x80]), (p.hashmap, map), (p.witList, wit),
          (p.sigMem, [0, 0, 0, 0, 0, 0, 0, 0x80] ++ one), (p.ioStart, tables)] ++ msgSegs p.msgList p.msgs ++ msgSegs p.strList p.strs ++
          [(p.constStart, consts)])
      | _, _ => none
    | _, _, _ => none
  | _, _, _ => none

/-- Memory when the module has been instantiated: zero where there is no data. -/
def initial (p : Prod) (fr : List (Nat × List Nat)) : Option Bytes := (segments p fr).map fun l => l.foldl write fun _ => 0

/-! ## Elements in memory -/

/-- A 32-bit word as a signed number. -/
def signed (v : Nat) : Int := if v < 2 ^ 31 then v else v - 2 ^ 32

/-- The element at an address: 4 bytes with the short number, 4 with the flags (bit 31: long, bit 30: Montgomery), then the limbs
(`bn128/fr-code.wat`, `Fr_copy`, `Fr_isTrue` and others). -/
def elAt (q : Nat) (b : Bytes) (a : Nat) : El :=
  ⟨signed (load b a 4), (load b (a + 4) 4).testBit 31, (load b (a + 4) 4).testBit 30, load b (a + 8) (8 * n64 q)⟩

/-- The constants stored for the flags (`-2147483648`, `1073741824` and their sum). -/
def flagWord (e : El) : Nat := (if e.long then 2 ^ 31 else 0) + if e.mont then 2 ^ 30 else 0

/-- An element written. -/
def setEl (q : Nat) (b : Bytes) (a : Nat) (e : El) : Bytes :=
  store (store (store b a 4 (e.short % 2 ^ 32).toNat) (a + 4) 4 (flagWord e)) (a + 8) (8 * n64 q) e.raw

/-- A function on elements called on memory: what it leaves in the elements at the addresses `l`, the ones it may write, is stored. -/
def onEls (q : Nat) (l : List Nat) (m : WFr.Mem) (b : Bytes) : Bytes := l.foldl (fun b a => setEl q b a (m a)) b

/-! ## Exported functions -/

/-- Ways in which the computation stops: `exceptionHandler` with the codes 1, 2, 3, 6 (lines 223-246) and the code `run` gives, and the
messages of `witness_calculator.js:148,151,154,171`. -/
inductive Err where
  | signalNotFound | noMore | alreadySet | exceeds | code (n : Nat) | jsNotFound | tooFew | tooMany | notAll
  deriving DecidableEq, Repr

/-- The generated functions of the main component: `create` gets the address of its first signal, `run` the address of the component
and gives a code, 0 if all went well. -/
structure Circuit where
  create : Bytes → Nat → Except Err Bytes
  run : Bytes → Nat → Bytes × Nat

/-- Memory, and the memories `run` has been called with, latest first (these are kept to speak about them). -/
structure State where
  mem : Bytes
  runs : List Bytes

variable (p : Prod) (c : Circuit)

/-- Lines 986-993, 1188-1195: `run`, and `exceptionHandler` if it gives a code. -/
def runMain (st : State) : Except Err State :=
  let r := c.run st.mem p.compTree
  if r.2 ≠ 0 then .error (.code r.2) else .ok ⟨r.1, st.mem :: st.runs⟩

/-- Lines 952-972: the words from `setMap` set to zero. -/
def zeroWords (b : Bytes) (a : Nat) : Nat → Bytes
  | 0 => b
  | k + 1 => store (zeroWords b a k) (a + 4 * k) 4 0

/-- Lines 947-976: what `init` writes before it creates the main component. -/
def initWrites (b : Bytes) : Bytes :=
  store (zeroWords (store b p.counter 4 p.ins) p.setMap p.ins) p.compFree 4 p.compTree

/-- Lines 940-999 `init`; the main component has signals from 1 on (`main_signal_offset`, build.rs:209). -/
def initCircuit (b : Bytes) : Except Err State :=
  match c.create (initWrites p b) (p.sigMem + 1 * (p.n32 + 2) * 4) with
  | .error e => .error e
  | .ok b => if p.ins = 0 then runMain p c ⟨b, []⟩ else .ok ⟨b, []⟩

/-- Lines 1018-1058, the loop; the first number bounds its iterations, which end because `i` comes back to `ini`. -/
def mapLoop (b : Bytes) (h ini : Nat) : Nat → Nat → Nat
  | 0, _ => 0
  | f + 1, i =>
    let aux := (p.hashmap + i * 16 % 2 ^ 32) % 2 ^ 32
    if load b aux 8 = h then aux
    else if load b aux 8 = 0 then 0
    else if Nat.land (i + 1) (p.tab - 1) = ini then 0
    else mapLoop b h ini f (Nat.land (i + 1) (p.tab - 1))

/-- Lines 1002-1061 `getInputSignalMapPosition`: an address, 0 if there is no such hash. -/
def mapPos (b : Bytes) (h : Nat) : Nat :=
  mapLoop p b h (Nat.land (h % 2 ^ 32) (p.tab - 1)) p.tab (Nat.land (h % 2 ^ 32) (p.tab - 1))

/-- Lines 1063-1075 `checkIfInputSignalSet`. -/
def isSet (b : Bytes) (sip : Nat) : Nat := load b ((p.setMap + sip) % 2 ^ 32) 4

/-- Lines 1155-1162, 1167-1173 of `setInputSignal`: a short number without flags and zero limbs. -/
def putShort (b : Bytes) (a v : Nat) : Bytes := store (store (store b a 4 v) (a + 4) 4 0) (a + 8) (8 * n64 p.q) 0

/-- `Fr_copy` (`bn128/fr-code.wat:9032-9055`, goldilocks 1904-1915). -/
def frCopy (b : Bytes) (r a : Nat) : Bytes := copy b r a (8 + 8 * n64 p.q)

/-- Lines 1138-1179: the number in the shared memory put at `a`, as a short number if it is one. -/
def putShared (b : Bytes) (a : Nat) : Bytes :=
  let t := WFr.toInt p.q (elAt p.q b) (p.shared - 8)
  let b := onEls p.q [p.shared - 8, WFr.s1, WFr.s2 p.q] t.1 b
  let b := putShort p b a t.2
  let e := WFr.eqR p.q (elAt p.q b) a (p.shared - 8)
  let b := onEls p.q [a, p.shared - 8, WFr.s1, WFr.s2 p.q] e.1 b
  if e.2 then putShort p b a t.2 else frCopy p b a (p.shared - 8)

/-- Lines 1077-1203 `setInputSignal`; the hash comes in two words. -/
def setInputSignal (st : State) (hmsb hlsb pos : Nat) : Except Err State :=
  let b := st.mem
  let ns := load b p.counter 4
  if ns = 0 then .error .noMore
  else
    let mp := mapPos p b (hmsb * 2 ^ 32 + hlsb)
    if mp = 0 then .error .signalNotFound
    else if load b (mp + 12) 4 ≤ pos then .error .exceeds
    else
      let sip := (load b (mp + 8) 4 + pos) % 2 ^ 32
      if isSet p b ((sip + (2 ^ 32 - (p.outs + 1))) % 2 ^ 32) ≠ 0 then .error .alreadySet
      else
        let b := putShared p b (p.sigAddr sip)
        let b := store b p.counter 4 (ns - 1)
        if ns - 1 = 0 then runMain p c ⟨b, st.runs⟩ else .ok ⟨b, st.runs⟩

/-- Lines 1205-1223 `getInputSignalSize`: 12 is added also to the 0 of a hash that is not there. -/
def getInputSignalSize (b : Bytes) (hmsb hlsb : Nat) : Int := signed (load b (mapPos p b (hmsb * 2 ^ 32 + hlsb) + 12) 4)

/-- Lines 890-904 `readSharedRWMemory`. -/
def readShared (b : Bytes) (j : Nat) : Nat := load b ((p.shared + j * 4 % 2 ^ 32) % 2 ^ 32) 4

/-- Lines 906-921 `writeSharedRWMemory`. -/
def writeShared (b : Bytes) (j v : Nat) : Bytes := store b ((p.shared + j * 4 % 2 ^ 32) % 2 ^ 32) 4 v

/-- Lines 1225-1234 `getRawPrime` with `Fr_int_copy` (`bn128/fr-code.wat:1-20`, goldilocks 1-8). -/
def getRawPrime (b : Bytes) : Bytes := copy b p.shared p.rawPrime (8 * n64 p.q)

/-- Lines 1302-1327 `getWitness`; `Fr_toLongNormal` writes the element it is given only. -/
def getWitness (b : Bytes) (i : Nat) : Bytes :=
  let s := load b ((p.witList + i * 2 ^ 2 % 2 ^ 32) % 2 ^ 32) 4
  let b := frCopy p b (p.shared - 8) (p.sigAddr s)
  onEls p.q [p.shared - 8] (WFr.toLongNormal p.q (elAt p.q b) (p.shared - 8)) b

/-! ## `witness_calculator.js` -/

/-- Lines 369-381 of `witness_calculator.js`, `fnvHash`: the 16 digits.  `str[i].charCodeAt()` is a unit of UTF-16; names of signals are of
characters that are one unit each. -/
def fnvHash (s : String) : List Nat :=
  let h := s.toList.foldl (fun h c => Nat.xor h c.toNat * 0x100000001B3 % 2 ^ 64) 0xCBF29CE484222325
  List.replicate (16 - (Wtns.hex h).length) 0 ++ Wtns.hex h

/-- Lines 142-144: the two halves. -/
def hMSB (s : String) : Nat := Wtns.parse16 ((fnvHash s).take 8)

/-- Lines 142-144. -/
def hLSB (s : String) : Nat := Wtns.parse16 (((fnvHash s).drop 8).take 8)

/-- Lines 157-160: a number into the shared memory. -/
def writeNumber (b : Bytes) (v : Nat) : Bytes :=
  (List.range p.n32).foldl (fun b j => writeShared p b j ((Wtns.inputWords v p.n32).getD j 0)) b

/-- Lines 156-168: the values of one name, from place `i` on.  They are reduced modulo the prime already (`JsonIn.jsInputs`). -/
def setValues (name : String) : Nat → List Int → State → Except Err State
  | _, [], st => .ok st
  | i, v :: vs, st =>
    match setInputSignal p c ⟨writeNumber p st.mem v.toNat, st.runs⟩ (hMSB name) (hLSB name) i with
    | .error e => .error e
    | .ok st => setValues name (i + 1) vs st

/-- Lines 141-169: one name. -/
def setName (st : State) (item : String × List Int) : Except Err State :=
  let size := getInputSignalSize p st.mem (hMSB item.1) (hLSB item.1)
  if size < 0 then .error .jsNotFound
  else if (item.2.length : Int) < size then .error .tooFew
  else if (item.2.length : Int) > size then .error .tooMany
  else setValues p c item.1 0 item.2 st

/-- Lines 141-169: all names. -/
def setNames : List (String × List Int) → State → Except Err State
  | [], st => .ok st
  | item :: items, st =>
    match setName p c st item with
    | .error e => .error e
    | .ok st => setNames items st

/-- Lines 131-173 `_doCalculateWitness`, for the names and values found in the file; `input_counter` is the number of values. -/
def calculate (b : Bytes) (items : List (String × List Int)) : Except Err State :=
  match initCircuit p c b with
  | .error e => .error e
  | .ok st =>
    match setNames p c items st with
    | .error e => .error e
    | .ok st => if (items.map fun i => i.2.length).sum < p.ins then .error .notAll else .ok st

/-- The words read after a call (lines 115-117, 182-184, 204-206, 247-249, 269-271). -/
def words (b : Bytes) : List Nat := (List.range p.n32).map (readShared p b)

/-- Lines 180-187, 266-273: the words of all members of the witness. -/
def witnessWords : Nat → Nat → Bytes → List (List Nat)
  | 0, _, _ => []
  | k + 1, i, b => words p (getWitness p b i) :: witnessWords k (i + 1) (getWitness p b i)

end Verif.WMem
