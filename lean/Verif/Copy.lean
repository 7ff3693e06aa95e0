import Verif.ModArith

/-!
# Copying by a store instruction

`StoreBucket` (compiler/src/intermediate_representation/store_bucket.rs) copies field elements from a source to a destination
and, when the destination is an input of a sub-component, lowers the counter of missing inputs of that component and starts it
when nothing is missing.  Sizes are known at compile time, or depend on the template of the component that is accessed at run
time.  This file models the C++ and the wasm code of this.  Addresses and sizes are unbounded integers (the programs use 32-bit
words).
-/

namespace Verif.Copy

/-- `SizeOption` (compiler/src/intermediate_representation/types.rs:18-22): one size, or pairs of template number and size. -/
inductive Size where
  | single (n : Nat)
  | multiple (vs : List (Nat × Nat))
  deriving DecidableEq, Repr

/-- Entry of the first pair with key `t`, zero when there is none: reading a `std::map<int,int>` built from the list of pairs
(store_bucket.rs:465-484, c_code_generator.rs:423-436; a second pair with the same key is not inserted, a missing key gives 0). -/
def mapGet (vs : List (Nat × Nat)) (t : Nat) : Nat :=
  match vs with
  | [] => 0
  | (k, n) :: vs => if k = t then n else mapGet vs t

/-- Memory of field elements: address ↦ value. -/
abbrev Mem := Int → Int

/-- One element copied (`Fr_copy`). -/
def put (m : Mem) (dst src : Int) : Mem := fun a => if a = dst then m src else m a

/-- `n` elements copied in ascending order, `fs` is the distance of neighbours (`Fr_copyn`, bn128/fr.asm:202-215, copies words
upwards). -/
def putN (fs : Int) : Nat → Int → Int → Mem → Mem
  | 0, _, _, m => m
  | n + 1, dst, src, m => putN fs n (dst + fs) (src + fs) (put m dst src)

/-! ## C++ -/

/-- store_bucket.rs:486-493 `size`: the text is a number when both sizes are single, else `std::min(…, …)`. -/
def cText (d s : Size) : Option Nat :=
  match d, s with
  | .single a, .single b => some (min a b)
  | _, _ => none

/-- Value of `size` at run time for destination template `td` and source template `ts`. -/
def cSize (d s : Size) (td ts : Nat) : Nat :=
  min (match d with | .single a => a | .multiple vs => mapGet vs td)
    (match s with | .single b => b | .multiple vs => mapGet vs ts)

/-- store_bucket.rs:621-650: `Fr_copyn` unless the text of the size is "1" or "0", in which case `Fr_copy` (or the assignment
of one element for goldilocks). -/
def cCopy (d s : Size) (td ts : Nat) (dst src : Int) (m : Mem) : Mem :=
  match cText d s with
  | some n => if n ≠ 1 ∧ n ≠ 0 then putN 1 n dst src m else put m dst src
  | none => putN 1 (cSize d s td ts) dst src m

/-! ## wasm -/

/-- Locals of the wasm functions used here (wasm_elements/mod.rs: tags). -/
inductive Loc where
  | aux0 | aux1 | resultSize | copyCounter | storeAux1 | storeAux2
  deriving DecidableEq, Repr

/-- Instructions.  `dstAddr`, `srcAddr` stand for the code that pushes the two addresses, `tidDst`, `tidSrc` for the code that
pushes the template number of the component of the destination / source (`get_local sub_cmp; i32.load`, store_bucket.rs:286-287,
295-307), `ctr` and `setCtr` for reading and writing the counter of the component (361-381), `run` for the call of its run
function. -/
inductive W where
  | const (n : Int)
  | get (l : Loc)
  | set (l : Loc)
  | tee (l : Loc)
  | eq
  | ltu
  | eqz
  | add
  | sub
  | dstAddr
  | srcAddr
  | tidDst
  | tidSrc
  | frCopy
  | ctr
  | setCtr
  | run
  | ifte (a b : List W)
  | block (b : List W)
  | loop (b : List W)
  | brIf (n : Nat)
  | br (n : Nat)

/-- State: value stack, locals, field elements, counter of missing inputs, number of runs of the component. -/
structure St where
  stack : List Int
  loc : Loc → Int
  mem : Mem
  ctr : Int
  runs : Nat

/-- What the opaque instructions push. -/
structure Cfg where
  dst : Int
  src : Int
  td : Nat
  ts : Nat

/-- Repetition of a `loop`: a branch with label 0 in the body starts the next round, at most `k` rounds. -/
def iter (g : St → Option (Option Nat × St)) : Nat → St → Option (Option Nat × St)
  | 0, _ => none
  | k + 1, s =>
    match g s with
    | some (some 0, s') => iter g k s'
    | some (some (n + 1), s') => some (some n, s')
    | r => r

mutual
/-- Execution of one instruction: `none` is a stack error or running out of `fuel` (rounds of a loop); `some (some n, s)` is a
pending branch to label `n` (WebAssembly core specification, structured control). -/
def step (c : Cfg) (fuel : Nat) : W → St → Option (Option Nat × St)
  | .const n, s => some (none, { s with stack := n :: s.stack })
  | .get l, s => some (none, { s with stack := s.loc l :: s.stack })
  | .set l, s =>
    match s.stack with
    | v :: st => some (none, { s with stack := st, loc := fun x => if x = l then v else s.loc x })
    | [] => none
  | .tee l, s =>
    match s.stack with
    | v :: st => some (none, { s with stack := v :: st, loc := fun x => if x = l then v else s.loc x })
    | [] => none
  | .eq, s =>
    match s.stack with
    | b :: a :: st => some (none, { s with stack := (if a = b then 1 else 0) :: st })
    | _ => none
  | .ltu, s =>
    match s.stack with
    | b :: a :: st => some (none, { s with stack := (if a < b then 1 else 0) :: st })
    | _ => none
  | .eqz, s =>
    match s.stack with
    | a :: st => some (none, { s with stack := (if a = 0 then 1 else 0) :: st })
    | _ => none
  | .add, s =>
    match s.stack with
    | b :: a :: st => some (none, { s with stack := (a + b) :: st })
    | _ => none
  | .sub, s =>
    match s.stack with
    | b :: a :: st => some (none, { s with stack := (a - b) :: st })
    | _ => none
  | .dstAddr, s => some (none, { s with stack := c.dst :: s.stack })
  | .srcAddr, s => some (none, { s with stack := c.src :: s.stack })
  | .tidDst, s => some (none, { s with stack := (c.td : Int) :: s.stack })
  | .tidSrc, s => some (none, { s with stack := (c.ts : Int) :: s.stack })
  | .frCopy, s =>
    match s.stack with
    | b :: a :: st => some (none, { s with stack := st, mem := put s.mem a b })
    | _ => none
  | .ctr, s => some (none, { s with stack := s.ctr :: s.stack })
  | .setCtr, s =>
    match s.stack with
    | v :: st => some (none, { s with stack := st, ctr := v })
    | [] => none
  | .run, s => some (none, { s with runs := s.runs + 1 })
  | .ifte a b, s =>
    match s.stack with
    | v :: st =>
      match (if v ≠ 0 then exec c fuel a { s with stack := st } else exec c fuel b { s with stack := st }) with
      | some (some 0, s') => some (none, s')
      | some (some (n + 1), s') => some (some n, s')
      | r => r
    | [] => none
  | .block b, s =>
    match exec c fuel b s with
    | some (some 0, s') => some (none, s')
    | some (some (n + 1), s') => some (some n, s')
    | r => r
  | .loop b, s => iter (fun s => exec c fuel b s) fuel s
  | .brIf n, s =>
    match s.stack with
    | v :: st => if v ≠ 0 then some (some n, { s with stack := st }) else some (none, { s with stack := st })
    | [] => none
  | .br n, s => some (some n, s)

/-- A sequence of instructions; a pending branch skips the rest. -/
def exec (c : Cfg) (fuel : Nat) : List W → St → Option (Option Nat × St)
  | [], s => some (none, s)
  | i :: is, s =>
    match step c fuel i s with
    | some (none, s') => exec c fuel is s'
    | r => r
end

/-- wasm_code_generator.rs:196-214 `create_if_selection` on the local `aux0`. -/
def ifSelection : List (Nat × Nat) → List W
  | [] => [.const 0]
  | (k, n) :: vs => [.get .aux0, .const k, .eq, .ifte [.const n] (ifSelection vs)]

/-- store_bucket.rs:285-293 (destination, `tid = tidDst`) and 294-316 (source, `tid = tidSrc`): pushes a size. -/
def sizeCode (tid : W) : Size → List W
  | .single n => [.const n]
  | .multiple vs => [tid, .set .aux0] ++ ifSelection vs

/-- The minimum of two sizes as written in store_bucket.rs:317-324. -/
def minCode : List W := [.tee .aux0, .tee .aux1, .ltu, .ifte [.get .aux0] [.get .aux1], .tee .resultSize]

/-- store_bucket.rs:332-354: the copying loop, `fs` bytes per element. -/
def copyLoop (fs : Int) : List W :=
  [.block [.loop [.get .copyCounter, .eqz, .brIf 1,
    .get .storeAux1, .get .storeAux2, .frCopy,
    .get .copyCounter, .const 1, .sub, .set .copyCounter,
    .get .storeAux1, .const fs, .add, .set .storeAux1,
    .get .storeAux2, .const fs, .add, .set .storeAux2,
    .br 0]]]

/-- `size_dest`, `size_src` (store_bucket.rs:60-75): for several sizes the number of pairs. -/
def listed : Size → Nat
  | .single n => n
  | .multiple vs => vs.length

/-- store_bucket.rs:275, 369: one of the two sizes is the single size 1. -/
def oneElem (d s : Size) : Bool := decide (d = .single 1) || decide (s = .single 1)

/-- Amount subtracted from the counter (store_bucket.rs:369-375). -/
def amountCode (d s : Size) : List W :=
  if oneElem d s then [.const 1]
  else
    match d, s with
    | .single a, .single b => [.const (min a b : Nat)]
    | _, _ => [.get .resultSize]

/-- The copying part of store_bucket.rs:275-356; the address of the destination was pushed before. -/
def copyCode (fs : Int) (d s : Size) : List W :=
  if oneElem d s then [.srcAddr, .frCopy]
  else
    [.set .storeAux1] ++
    (match d, s with
      | .single a, .single b => [.const (min a b : Nat)]
      | _, _ => sizeCode .tidDst d ++ sizeCode .tidSrc s ++ minCode) ++
    [.set .copyCounter, .srcAddr, .set .storeAux2] ++ copyLoop fs

/-- store_bucket.rs:77-430 `produce_wasm` for a destination in a sub-component (`sub = true`) or elsewhere; nothing at all is
generated when a listed size is 0. -/
def wStore (fs : Int) (sub : Bool) (d s : Size) : List W :=
  if listed d = 0 ∨ listed s = 0 then []
  else
    [.dstAddr] ++ copyCode fs d s ++
    (if sub then [.ctr] ++ amountCode d s ++ [.sub, .setCtr, .ctr, .eqz, .ifte [.run] []] else [])

/-- `Size` at run time when the component has template `t`: what both programs should use. -/
def Size.at (t : Nat) : Size → Nat
  | .single n => n
  | .multiple vs => mapGet vs t

end Verif.Copy
