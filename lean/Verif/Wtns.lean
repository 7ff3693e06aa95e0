import Verif.Frg

/-!
# The witness file

Model of the two writers of witness files: `writeBinWitness` of the C++ program
(`/repo/code_producers/src/c_elements/common/main.cpp:288-334`, for goldilocks `common64/main.cpp:312-359`) and `calculateWTNSBin` of
`/repo/code_producers/src/wasm_elements/common/witness_calculator.js:212-277`.

A file is a list of bytes.  Both programs store words in the order of the machine, taken to be little endian.
-/

namespace Verif.Wtns

/-- `k` bytes of a number in memory, lowest first. -/
def le : Nat → Nat → List Nat
  | 0, _ => []
  | k + 1, n => n % 256 :: le k (n / 256)

/-- The text `wtns` (main.cpp:293). -/
def magic : List Nat := [119, 116, 110, 115]

/-- main.cpp:288-334 for the limbs of the witness as they are in memory; `nw` is `get_size_of_witness()`.  `n8` and `nVars` are `u32`. -/
def cppFile (n8 q nw : Nat) (limbs : List Nat) : List Nat :=
  magic ++ le 4 2 ++ le 4 2 ++ le 4 1 ++ le 8 (8 + n8) ++ le 4 n8 ++ le n8 q ++ le 4 nw ++ le 4 2 ++
    le 8 (n8 * nw) ++ limbs.flatMap (le n8)

/-- main.cpp:305: `Fr_N64*8`. -/
def n8 (q : Nat) : Nat := Frg.n64 q * 8

/-- The file of a program without assembly: main.cpp:328-332 converts each element of the witness in place. -/
def cppWitness (q : Nat) (ws : List Frg.El) : List Nat :=
  cppFile (n8 q) q ws.length (ws.map fun v => (Frg.toLongNormal q v v).raw)

/-- The file with the prime goldilocks: `common64/main.cpp:329,337,352-356`. -/
def cppWitness64 (q : Nat) (ws : List Nat) : List Nat := cppFile 8 q ws.length ws

/-- `this.n32`: `size_32_bit` (`/repo/compiler/src/circuit_design/build.rs:271`). -/
def n32 (q : Nat) : Nat := Frg.qbits q / 32 + if Frg.qbits q % 32 ≠ 0 then 1 else 0

/-- `readSharedRWMemory(j)` after `getWitness` or `getRawPrime`: word `j` of the number (the WebAssembly code that copies it there is
not modelled). -/
def word (j v : Nat) : Nat := v / 2 ^ (32 * j) % 2 ^ 32

/-- A store into a `Uint32Array`: reduced to 32 bits; past the end it has no effect. -/
def put (b : List Nat) (i x : Nat) : List Nat := b.set i (x % 2 ^ 32)

/-- `for (let j=0; j<this.n32; j++) buff32[pos+j] = …` (witness_calculator.js:247-249, 269-271). -/
def putWords (b : List Nat) (pos v : Nat) : Nat → List Nat
  | 0 => b
  | j + 1 => put (putWords b pos v j) (pos + j) (word j v)

/-- witness_calculator.js:267-273. -/
def putAll (n : Nat) : List Nat → Nat → List Nat → List Nat
  | b, _, [] => b
  | b, pos, v :: vs => putAll n (putWords b pos v n) (pos + n) vs

/-- `x.toString(16)`: the digits, highest first. -/
def hex (x : Nat) : List Nat := if x = 0 then [0] else (Nat.digits 16 x).reverse

/-- `parseInt(s, 16)` of a slice, stored in a `Uint32Array`: of nothing it is `NaN`, which is stored as 0. -/
def parse16 (s : List Nat) : Nat := s.foldl (fun r d => 16 * r + d) 0

/-- witness_calculator.js:212-277 `calculateWTNSBin` after the inputs are set: the words of the buffer.  The four bytes of the magic text
(lines 219-222) are word 0. -/
def jsWords (n q : Nat) (vals : List Nat) : List Nat :=
  let nw := vals.length
  let b := List.replicate (nw * n + n + 11) 0
  let b := put b 0 (119 + 116 * 2 ^ 8 + 110 * 2 ^ 16 + 115 * 2 ^ 24)
  let b := put b 1 2
  let b := put b 2 2
  let b := put b 3 1
  let n8 := n * 4
  let b := put b 4 (parse16 ((hex (8 + n8)).take 8))
  let b := put b 5 (parse16 (((hex (8 + n8)).drop 8).take 8))
  let b := put b 6 n8
  let b := putWords b 7 q n
  let pos := 7 + n
  let b := put b pos nw
  let b := put b (pos + 1) 2
  let b := put b (pos + 2) (parse16 ((hex (n8 * nw)).take 8))
  let b := put b (pos + 3) (parse16 (((hex (n8 * nw)).drop 8).take 8))
  putAll n b (pos + 4) vals

/-- The bytes of the buffer. -/
def jsFile (n q : Nat) (vals : List Nat) : List Nat := (jsWords n q vals).flatMap (le 4)

/-- `toArray32` without `size` (witness_calculator.js:321-328), highest word first. -/
def toArray32 (rem : Nat) : List Nat := (Nat.digits (2 ^ 32) rem).reverse

/-- `toArray32(rem, size)` (witness_calculator.js:321-336). -/
def toArray32Sized (rem size : Nat) : List Nat :=
  List.replicate (size - (toArray32 rem).length) 0 ++ toArray32 rem

/-- `fromArray32` (witness_calculator.js:338-345). -/
def fromArray32 (l : List Nat) : Nat := l.foldl (fun r d => r * 2 ^ 32 + d) 0

/-- The words `j ↦ arr[n32-1-j]` written to shared memory for an input (witness_calculator.js:157-160). -/
def inputWords (v n : Nat) : List Nat := (toArray32Sized v n).reverse

/-- `calculateWitness` (witness_calculator.js:175-191): the number for the words that were read. -/
def jsNumber (v n : Nat) : Nat := fromArray32 ((List.range n).map fun j => word j v).reverse

end Verif.Wtns
