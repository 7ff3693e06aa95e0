import Verif.WMemInit

/-!
# What `log` prints and what error messages say

From a `log` statement to the lines the two witness programs print: strings are cut in the parser
(`program_structure/src/abstract_syntax_tree/statement_builders.rs`), numbered
(`compiler/src/intermediate_representation/translate.rs`), printed by `printf` in the C++ program and
through the message buffer of the WebAssembly module by the JavaScript program
(`compiler/src/intermediate_representation/log_bucket.rs`,
`code_producers/src/wasm_elements/wasm_code_generator.rs`,
`code_producers/src/wasm_elements/common/witness_calculator.js`).  The same buffer holds the messages of
failed assertions.

Texts are lists of bytes.  Simplifications: a value that is logged is a number given by the run, that
it reaches the shared memory is `C85`; of the escapes of C and of the text format of WebAssembly only
the simple ones are decoded; threads are left out.
-/

set_option linter.unusedVariables false

namespace Verif.Log
open Verif.WMem

/-! ## From the text to the buckets -/

/-- An argument of `log` (`LogArgument`, `ast.rs:409-412`); expressions are numbers for the run to give
a value to. -/
inductive Arg where
  | text (s : List Nat)
  | value (k : Nat)
deriving DecidableEq, Repr

/-- `is_char_boundary`: a position in a text of UTF-8 is not inside a character. -/
def boundary (s : List Nat) (k : Nat) : Bool :=
  match s[k]? with
  | some c => !(128 ≤ c && c < 192)
  | none => true

/-- `split_string` (`statement_builders.rs:68-78`); `none` is the panic of `split_at`.  `n` bounds the
number of turns. -/
def split : Nat → List Nat → Option (List (List Nat))
  | 0, _ => some []
  | n + 1, s =>
    if s = [] then some []
    else
      let k := min 230 s.length
      if boundary s k then (split n (s.drop k)).map fun r => s.take k :: r else none

/-- `build_log_call` (`statement_builders.rs:57-66`). -/
def buildCall : List Arg → Option (List Arg)
  | [] => some []
  | .value k :: as => (buildCall as).map fun r => .value k :: r
  | .text s :: as =>
      match split s.length s, buildCall as with
      | some cs, some r => some (cs.map .text ++ r)
      | _, _ => none

/-- `LogBucketArg` (`log_bucket.rs:8-11`). -/
inductive Item where
  | str (id : Nat)
  | value (k : Nat)
deriving DecidableEq, Repr

/-- The table of strings, by number (`string_table`, a map from strings to numbers, turned round by
`create_table_usize_to_string`, `compiler/src/circuit_design/build.rs:677-685`). -/
abbrev Table := List (List Nat)

/-- One string of `translate_log` (`translate.rs:763-771`). -/
def intern (t : Table) (s : List Nat) : Nat × Table :=
  match t.findIdx? (· = s) with
  | some i => (i, t)
  | none => (t.length, t ++ [s])

/-- `translate_log` (`translate.rs:752-783`). -/
def translate : Table → List Arg → List Item × Table
  | t, [] => ([], t)
  | t, .value k :: as => ((.value k :: (translate t as).1), (translate t as).2)
  | t, .text s :: as =>
      ((.str (intern t s).1 :: (translate (intern t s).2 as).1), (translate (intern t s).2 as).2)

/-- All `log` statements of a program, in the order they are translated, with one table
(`build.rs:45-143` and 151-198). -/
def translateAll : Table → List (List Arg) → List (List Item) × Table
  | t, [] => ([], t)
  | t, l :: ls =>
      (((translate t l).1 :: (translateAll (translate t l).2 ls).1),
        (translateAll (translate t l).2 ls).2)

/-- The `log` statements of a program as they are compiled; `none` if the parser panics. -/
def compile (prog : List (List Arg)) : Option (List (List Item) × Table) :=
  (prog.mapM buildCall).map (translateAll [])

/-! ## The C++ program -/

/-- The characters of a number in decimal (`Fr_element2str`, `BigInt.prototype.toString`). -/
def dec (v : Nat) : List Nat := if v = 0 then [48] else (Nat.digits 10 v).reverse.map (48 + ·)

/-- The characters of a C string literal; `none` for the escapes left out and for text that ends the
literal. -/
def cLit : List Nat → Option (List Nat)
  | [] => some []
  | 92 :: c :: s =>
      match (([(110, 10), (116, 9), (114, 13), (97, 7), (98, 8), (102, 12), (118, 11), (92, 92), (39, 39),
          (34, 34), (63, 63)] : List (Nat × Nat)).find? (·.1 = c)) with
      | some e => (cLit s).map fun r => e.2 :: r
      | none => none
  | c :: s => if c = 92 ∨ c = 34 ∨ c = 10 then none else (cLit s).map fun r => c :: r

/-- `printf` with a format and no other argument; `none` where it is undefined. -/
def printf : List Nat → Option (List Nat)
  | [] => some []
  | 37 :: 37 :: s => (printf s).map fun r => 37 :: r
  | c :: s => if c = 37 then none else if c = 0 then some [] else (printf s).map fun r => c :: r

/-- What a run gives: the value of each expression and what evaluating it does to the memory of the
WebAssembly module. -/
abbrev Env := Nat → Nat × (Bytes → Bytes)

/-- One argument of `produce_c` (`log_bucket.rs:111-139`). -/
def cItem (t : Table) (env : Env) : Item → Option (List Nat)
  | .value k => some (dec (env k).1)
  | .str i => (t[i]?).bind fun s => (cLit s).bind printf

/-- `produce_c` (`log_bucket.rs:106-161`): a blank after all but the last, a newline at the end. -/
def cLog (t : Table) (env : Env) : List Item → Option (List Nat)
  | [] => some [10]
  | [a] => (cItem t env a).map fun r => r ++ [10]
  | a :: as => (cItem t env a).bind fun r => (cLog t env as).map fun q => r ++ [32] ++ q

/-! ## The WebAssembly module and the JavaScript program -/

/-- A string of the text format of WebAssembly; `none` for what is refused and for the escape
`\u{...}`. -/
def wat : List Nat → Option (List Nat)
  | [] => some []
  | 92 :: c :: s =>
      match (([(110, 10), (116, 9), (114, 13), (92, 92), (39, 39), (34, 34)] : List (Nat × Nat)).find?
          (·.1 = c)) with
      | some e => (wat s).map fun r => e.2 :: r
      | none => none
  | c :: s => if c = 92 ∨ c = 34 ∨ c < 32 ∨ c = 127 then none else (wat s).map fun r => c :: r

variable (p : Prod)

/-- `get_message_buffer_start` (`wasm_elements/mod.rs:399-401`). -/
def buf : Nat := p.msgCounter + 4

/-- `getMessageChar` (`wasm_code_generator.rs:1329-1358`). -/
def getMessageChar (b : Bytes) : Nat × Bytes :=
  let c := load b p.msgCounter 4
  if 256 ≤ c then (0, b)
  else (load b ((buf p + c) % 2 ^ 32) 1, store b p.msgCounter 4 ((c + 1) % 2 ^ 32))

/-- `getMessage` (`witness_calculator.js:81-89`), at most so many turns. -/
def getMessage : Nat → Bytes → Option (List Nat × Bytes)
  | 0, _ => none
  | n + 1, b =>
    if (getMessageChar p b).1 = 0 then some ([], (getMessageChar p b).2)
    else (getMessage n (getMessageChar p b).2).map fun r => ((getMessageChar p b).1 :: r.1, r.2)

/-- The loop that copies a message (`wasm_code_generator.rs:1372-1399` and 1445-1472): source, place in
the buffer; `none` after so many turns. -/
def copyLoop (fin : Nat) : Nat → Nat → Nat → Bytes → Option (Nat × Bytes)
  | 0, _, _, _ => none
  | n + 1, em, bm, b =>
    if fin = em then some (bm, b)
    else if load b em 1 = 0 then some (bm, b)
    else copyLoop fin n ((em + 1) % 2 ^ 32) ((bm + 1) % 2 ^ 32) (store b bm 1 (load b em 1))

/-- The loop that fills the rest of the buffer (`wasm_code_generator.rs:1401-1418` and 1575-1592). -/
def zeroLoop (fin : Nat) : Nat → Nat → Bytes → Option Bytes
  | 0, _, _ => none
  | n + 1, bm, b => if bm = fin then some b else zeroLoop fin n ((bm + 1) % 2 ^ 32) (store b bm 1 0)

/-- `buildLogMessage` (`wasm_code_generator.rs:1360-1425`). -/
def buildLogMessage (b : Bytes) (m : Nat) : Option Bytes :=
  (copyLoop (240 + buf p) (2 ^ 32) m (buf p) b).bind fun r =>
    (zeroLoop (buf p + 256) (2 ^ 32) r.1 r.2).map fun b => store b p.msgCounter 4 0

/-- Characters stored one after the other (`wasm_code_generator.rs:1473-1522`: " line: "). -/
def putChars : List Nat → Nat × Bytes → Nat × Bytes
  | [], r => r
  | c :: cs, r => putChars cs ((r.1 + 1) % 2 ^ 32, store r.2 r.1 1 c)

/-- The loop on `$p10` (`wasm_code_generator.rs:1525-1542`). -/
def powLoop (l : Nat) : Nat → Nat → Option Nat
  | 0, _ => none
  | n + 1, p10 => if p10 * 10 % 2 ^ 32 > l then some p10 else powLoop l n (p10 * 10 % 2 ^ 32)

/-- The loop that writes the digits (`wasm_code_generator.rs:1545-1573`). -/
def digitLoop : Nat → Nat → Nat → Nat × Bytes → Option (Nat × Bytes)
  | 0, _, _, _ => none
  | n + 1, p10, l, r =>
    if p10 = 0 then some r
    else digitLoop n (p10 / 10) (l % p10) ((r.1 + 1) % 2 ^ 32, store r.2 r.1 1 ((l / p10 + 0x30) % 2 ^ 32))

/-- `buildBufferMessage` (`wasm_code_generator.rs:1427-1599`): message `m`, line `l`. -/
def buildBufferMessage (b : Bytes) (m l : Nat) : Option Bytes :=
  (copyLoop (240 + buf p) (2 ^ 32) ((p.msgList + m * 240 % 2 ^ 32) % 2 ^ 32) (buf p) b).bind fun r =>
    (powLoop l (2 ^ 32) 1).bind fun p10 =>
      (digitLoop (2 ^ 32) p10 l (putChars [0x20, 0x6C, 0x69, 0x6E, 0x65, 0x3A, 0x20] r)).bind fun r =>
        (zeroLoop (buf p + 256) (2 ^ 32) r.1 r.2).map fun b => store b p.msgCounter 4 0

/-- The memory, `msgStr` and what was printed (characters). -/
structure Js where
  mem : Bytes
  msg : List Nat
  out : List Nat

/-- A piece added to `msgStr` (`witness_calculator.js:51-56` and 98-103). -/
def addPiece (s : Js) (m : List Nat) : Js := { s with msg := (if s.msg ≠ [] then s.msg ++ [32] else s.msg) ++ m }

/-- `writeBufferMessage` (`witness_calculator.js:44-58`). -/
def writeBufferMessage (s : Js) : Option Js :=
  (getMessage p 257 s.mem).map fun r =>
    if r.1 = [10] then ⟨r.2, [], s.out ++ s.msg ++ [10]⟩ else addPiece { s with mem := r.2 } r.1

/-- One argument of `produce_wasm` (`log_bucket.rs:73-90`). -/
def wItem (env : Env) (s : Js) : Item → Option Js
  | .value k => some (addPiece { s with mem := (env k).2 s.mem } (dec (env k).1))
  | .str i => (buildLogMessage p s.mem (p.strList + i * 240)).bind fun b => writeBufferMessage p { s with mem := b }

/-- The loop over the arguments. -/
def wItems (env : Env) : Js → List Item → Option Js
  | s, [] => some s
  | s, a :: as => (wItem p env s a).bind fun s => wItems env s as

/-- `produce_wasm` (`log_bucket.rs:67-102`). -/
def wLog (env : Env) (s : Js) (as : List Item) : Option Js :=
  (wItems p env s as).bind fun s =>
    writeBufferMessage p { s with mem := store (store s.mem (buf p) 4 0x0a) p.msgCounter 4 0 }

/-- What a terminal gets of characters below 256: UTF-8. -/
def utf8 (c : Nat) : List Nat := if c < 128 then [c] else [192 + c / 64, 128 + c % 64]

/-! ## Runs -/

/-- A run of the C++ program: which `log` statements, with which values. -/
def cRun (t : Table) (ls : List (List Item)) : List (Nat × Env) → Option (List Nat)
  | [] => some []
  | (i, env) :: rs =>
      (ls[i]?).bind fun l => (cLog t env l).bind fun r => (cRun t ls rs).map fun q => r ++ q

/-- The same run of the JavaScript program. -/
def wRun (ls : List (List Item)) : Js → List (Nat × Env) → Option Js
  | s, [] => some s
  | s, (i, env) :: rs => (ls[i]?).bind fun l => (wLog p env s l).bind fun s => wRun ls s rs

end Verif.Log
