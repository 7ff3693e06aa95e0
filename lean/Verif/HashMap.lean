import Mathlib.Data.List.Basic

/-!
Model of the table in which a generated witness calculator looks for its inputs: the construction in
`code_producers/src/c_elements/c_code_generator.rs:575-587` (the same text in
`wasm_elements/wasm_code_generator.rs:255-268`), the lookup of the C++ calculator
(`c_elements/common/calcwit.cpp:51-69`) and the lookup of the WebAssembly calculator
(`wasm_elements/wasm_code_generator.rs:1002-1061`).

Words (`u64`, `uint`) are natural numbers; the products and sums made here stay below the table size
times two, so nothing wraps. The WebAssembly position is an index here, an address there.
-/

namespace Verif.HashMap

/-- code_producers/src/components/mod.rs:50-55 `hasher` (FNV-1a with 64 bits); calcwit.cpp:17-24
computes the same on ASCII text. -/
def hasher (name : String) : Nat :=
  name.toByteArray.data.toList.foldl
    (fun h c => Nat.xor h c.toNat * 0x100000001B3 % 2 ^ 64) 14695981039346656037

/-- components/mod.rs:14-20 `InputInfo`: the fields used here. -/
structure Info where
  name : String
  start : Nat
  size : Nat
  deriving DecidableEq, Repr

/-- An entry `(hash, start, size)` of the table. -/
structure Slot where
  hash : Nat
  start : Nat
  size : Nat
  deriving DecidableEq, Repr, Inhabited

/-- The entry written for an input under a hash function (c_code_generator.rs:579,584). -/
def entry (H : String → Nat) (i : Info) : Slot := ⟨H i.name, i.start, i.size⟩

/-- Ways in which building the table fails: `assert!`, remainder by zero, an index out of range; the
last is no failure of the program, it stands for a loop that did not end within the bound. -/
inductive TabErr where
  | assertFailed | divByZero | index | outOfFuel
  deriving DecidableEq, Repr

/-- c_code_generator.rs:581-583, the `while` loop. The first number bounds its iterations. -/
def probe (t : List Slot) : Nat → Nat → Except TabErr Nat
  | 0, _ => .error .outOfFuel
  | fuel + 1, p =>
    match t[p]? with
    | none => .error .index
    | some e => if e.start ≠ 0 then probe t fuel ((p + 1) % t.length) else .ok p

/-- c_code_generator.rs:578-585, the `for` loop. -/
def insertAll (H : String → Nat) (fuel : Nat) : List Info → List Slot → Except TabErr (List Slot)
  | [], t => .ok t
  | i :: is, t =>
    if t.length = 0 then .error .divByZero
    else
      match probe t fuel (H i.name % t.length) with
      | .error e => .error e
      | .ok p => insertAll H fuel is (t.set p (entry H i))

/-- c_code_generator.rs:575-587, `generate_hash_map`. -/
def generate (H : String → Nat) (fuel : Nat) (infos : List Info) (size : Nat) :
    Except TabErr (List Slot) :=
  if infos.length ≤ size then insertAll H fuel infos (List.replicate size ⟨0, 0, 0⟩)
  else .error .assertFailed

/-- Results of a lookup other than a position. -/
inductive FindErr where
  | notFound | divByZero | index | outOfFuel
  deriving DecidableEq, Repr

/-- calcwit.cpp:57-64, the `while` loop; `ini` is the position at which the search began. -/
def searchC (t : List Slot) (h ini : Nat) : Nat → Nat → Except FindErr Nat
  | 0, _ => .error .outOfFuel
  | fuel + 1, pos =>
    if pos = ini then .error .notFound
    else
      match t[pos]? with
      | none => .error .index
      | some e =>
        if e.hash = h then .ok pos
        else if e.start = 0 then .error .notFound
        else searchC t h ini fuel ((pos + 1) % t.length)

/-- calcwit.cpp:51-69, `getInputSignalHashPosition`. -/
def findC (t : List Slot) (h : Nat) : Except FindErr Nat :=
  if t.length = 0 then .error .divByZero
  else
    match t[h % t.length]? with
    | none => .error .index
    | some e =>
      if e.hash ≠ h then searchC t h (h % t.length) t.length ((h % t.length + 1) % t.length)
      else .ok (h % t.length)

/-- wasm_code_generator.rs:1019-1056, the loop. -/
def searchW (t : List Slot) (h ini : Nat) : Nat → Nat → Except FindErr Nat
  | 0, _ => .error .outOfFuel
  | fuel + 1, i =>
    match t[i]? with
    | none => .error .index
    | some e =>
      if e.hash = h then .ok i
      else if e.hash = 0 then .error .notFound
      else if Nat.land (i + 1) (t.length - 1) = ini then .error .notFound
      else searchW t h ini fuel (Nat.land (i + 1) (t.length - 1))

/-- wasm_code_generator.rs:1002-1061, `getInputSignalMapPosition`: the hash is cut to 32 bits and
masked. -/
def findW (t : List Slot) (h : Nat) : Except FindErr Nat :=
  searchW t h (Nat.land (h % 2 ^ 32) (t.length - 1)) t.length
    (Nat.land (h % 2 ^ 32) (t.length - 1))

end Verif.HashMap
