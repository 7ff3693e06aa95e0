import Verif.ModArith
import Mathlib.Data.List.Basic

/-!
# Model of the address computations of `compiler/src/intermediate_representation/translate.rs`

Instructions that appear in an index or an address: `ValueBucket`, `ComputeBucket` and everything else (loads, calls),
which is opaque here (`load k`) and only has a value.  Lines, message ids and temporaries are dropped.
-/

namespace Verif.Address

open Verif.ModArith (Fail Res)

/-- `OperatorType` (intermediate_representation/compute_bucket.rs:5-34); all operators that the index conversion treats
alike are `other k`. -/
inductive Op where
  | add
  | mul
  | other (k : Nat)
  | toAddress
  | mulAddress
  | addAddress
  deriving DecidableEq, Repr

/-- Instructions (intermediate_representation/ir_interface.rs:24-36) that occur in addresses.  `u32 n` and `big n` are
`ValueBucket` with `parse_as` `U32` / `BigInt` (value_bucket.rs:6-13); for `BigInt` the model stores the value of the
decimal text that `field_tracker` keeps for the constant instead of the position of the constant. -/
inductive IR where
  | u32 (n : Nat)
  | big (n : Nat)
  | load (k : Nat)
  | comp (o : Op) (args : List IR)
  deriving Repr

mutual
/-- translate.rs:1665-1707 `check_if_possible_to_usize_single`: (can be computed with machine integers, is a small
number).  `usize::from_str_radix` of a decimal text succeeds iff the number is below `2^64`. -/
def check : IR → Bool × Bool
  | .u32 n => (true, decide (n < 100))
  | .big n => if n < 2 ^ 64 then (true, decide (n < 100)) else (false, false)
  | .comp .add args => ((checkAll args).1, false)
  | .comp .mul args => ((checkAll args).1 && decide ((checkAll args).2 ≤ 1), false)
  | .comp _ _ => (false, false)
  | .load _ => (true, false)

/-- translate.rs:1709-1723 `check_if_possible_to_usize_multiple`, with the number of non small operands still visible. -/
def checkAll : List IR → Bool × Nat
  | [] => (true, 0)
  | i :: is =>
    ((check i).1 && (checkAll is).1, (if (check i).2 then 0 else 1) + (checkAll is).2)
end

mutual
/-- translate.rs:1727-1779 `convert_to_usize_single`; `unreachable!()` is a panic. -/
def convert : IR → Res IR
  | .u32 n => .ok (.u32 n)
  | .big n => if n < 2 ^ 64 then .ok (.u32 n) else .error .panic
  | .comp .add args =>
    match convertAll args with
    | .ok as' => .ok (.comp .addAddress as')
    | .error e => .error e
  | .comp .mul args =>
    match convertAll args with
    | .ok as' => .ok (.comp .mulAddress as')
    | .error e => .error e
  | .comp _ _ => .error .panic
  | .load k => .ok (.comp .toAddress [.load k])

/-- translate.rs:1781-1791 `convert_to_usize_multiple`. -/
def convertAll : List IR → Res (List IR)
  | [] => .ok []
  | i :: is =>
    match convert i with
    | .ok i' =>
      match convertAll is with
      | .ok is' => .ok (i' :: is')
      | .error e => .error e
    | .error e => .error e
end

/-- Body of the loop of translate.rs:1638-1663 `indexing_instructions_filter`. -/
def filterOne (i : IR) : Res IR :=
  if (check i).1 then convert i else .ok (.comp .toAddress [i])

/-- translate.rs:1638-1663 `indexing_instructions_filter`. -/
def filterIdx : List IR → Res (List IR)
  | [] => .ok []
  | i :: is =>
    match filterOne i with
    | .ok i' =>
      match filterIdx is with
      | .ok is' => .ok (i' :: is')
      | .error e => .error e
    | .error e => .error e

/-- translate.rs:1794-1810 `fold`, on the stack given from bottom to top: the last element is popped and becomes the
right operand.  Popping from an empty stack is the panic (`unwrap`). -/
def foldStack (o : Op) : List IR → Res IR
  | [] => .error .panic
  | i :: is => .ok (is.foldl (fun acc x => .comp o [acc, x]) i)

/-- The loops of translate.rs:1569-1591 and 1611-1631: one product per index, `len` is `linear_length`, `dims` the
dimensions still to be popped.  `unwrap` on an exhausted list and a division by zero panic. -/
def jumps : Nat → List Nat → List IR → Res (List IR)
  | _, _, [] => .ok []
  | _, [], _ :: _ => .error .panic
  | len, d :: ds, i :: is =>
    if d = 0 then .error .panic
    else
      match jumps (len / d) ds is with
      | .ok js => .ok (.comp .mulAddress [.u32 (len / d), i] :: js)
      | .error e => .error e

/-- `BusAccessInfo` (intermediate_representation/translate.rs:1079-1084): offset of the field inside the bus, its total size and its
dimensions (`field_id` is used by the run-time access only). -/
structure BusAcc where
  offset : Nat
  size : Nat
  lengths : List Nat
  deriving Repr

/-- translate.rs:1596-1634: the loop over the bus accesses, with the indices that follow each access. -/
def accJumps : List BusAcc → List (List IR) → Res (List IR)
  | [], _ => .ok []
  | _ :: _, [] => .error .panic
  | a :: accs, ix :: ixs =>
    match filterIdx ix with
    | .error e => .error e
    | .ok is =>
      match jumps a.size a.lengths is with
      | .error e => .error e
      | .ok js =>
        match accJumps accs ixs with
        | .error e => .error e
        | .ok rest => .ok ((if a.offset ≠ 0 then [IR.u32 a.offset] else []) ++ js ++ rest)

/-- translate.rs:1548-1636 `compute_full_address`. -/
def fullAddress (at_ : IR) (dims : List Nat) (size : Nat) (accs : List BusAcc) (idx : List (List IR)) : Res IR :=
  match idx with
  | [] => .error .panic
  | i0 :: rest =>
    if accs.length ≠ rest.length then .error .panic
    else
      match filterIdx i0 with
      | .error e => .error e
      | .ok is =>
        match jumps size dims is with
        | .error e => .error e
        | .ok js =>
          match accJumps accs rest with
          | .error e => .error e
          | .ok more => foldStack .addAddress (js ++ more ++ [at_])

/-- The loop of `compute_jump` (translate.rs:391-402, 443-454, circuit_design/build.rs:31-42). -/
def jumpLoop : Nat → Nat → List Nat → List Nat → Res Nat
  | jump, _, _, [] => .ok jump
  | _, _, [], _ :: _ => .error .panic
  | jump, full, l :: ls, i :: is =>
    if l = 0 then .error .panic else jumpLoop (jump + i * (full / l)) (full / l) ls is

/-- `compute_jump` (translate.rs:391-402, 443-454, circuit_design/build.rs:31-42): position of a component in the flattened
array of components. -/
def computeJump (lengths indexes : List Nat) : Res Nat :=
  jumpLoop 0 (lengths.foldl (· * ·) 1) lengths indexes

/-- ir_processing/reduce_stack.rs:56-69 `reduce_operands` and the closure at 36-40, on machine integers of 64 bits: an
overflow is reported as a panic (what a checked build does). -/
def reduceOp (o : Op) (a b : IR) : Res (Option Nat) :=
  match a, b with
  | .u32 x, .u32 y =>
    if o = .mulAddress then (if x * y < 2 ^ 64 then .ok (some (x * y)) else .error .panic)
    else (if x + y < 2 ^ 64 then .ok (some (x + y)) else .error .panic)
  | _, _ => .ok none

/-- ir_processing/reduce_stack.rs:30-54: `reduce_compute` after its operands were reduced; `stack[0]`, `stack[1]` panic when
missing. -/
def reduceComp (o : Op) (args : List IR) : Res IR :=
  match o with
  | .mulAddress | .addAddress =>
    match args with
    | a :: b :: _ =>
      match reduceOp o a b with
      | .ok (some v) => .ok (.u32 v)
      | .ok none => .ok (.comp o args)
      | .error e => .error e
    | _ => .error .panic
  | _ => .ok (.comp o args)

mutual
/-- ir_processing/reduce_stack.rs:11-26 `reduce_instruction` on the instructions of the model (the addresses inside an
opaque `load` are not visible here). -/
def reduce : IR → Res IR
  | .u32 n => .ok (.u32 n)
  | .big n => .ok (.big n)
  | .load k => .ok (.load k)
  | .comp o args =>
    match reduceList args with
    | .ok as' => reduceComp o as'
    | .error e => .error e

/-- ir_processing/reduce_stack.rs:3-9 `reduce_list`. -/
def reduceList : List IR → Res (List IR)
  | [] => .ok []
  | i :: is =>
    match reduce i with
    | .ok i' =>
      match reduceList is with
      | .ok is' => .ok (i' :: is')
      | .error e => .error e
    | .error e => .error e
end

/-! ## Meaning of the instructions in the generated programs -/

/-- What the opaque parts stand for: the field element read by `load k` and the result of the other operators. -/
structure Env where
  load : Nat → Int
  op : Nat → List Int → Int

mutual
/-- Field value of an instruction: the calls `Fr_add`, `Fr_mul`, … that `ComputeBucket::produce_c` / `produce_wasm` emit
(compute_bucket.rs:173-260, 340-480), on representatives in `[0, p)`.  Machine integers have no field value. -/
def fval (p : Int) (ρ : Env) : IR → Option Int
  | .u32 _ => none
  | .big n => some ((n : Int) % p)
  | .load k => some (ρ.load k)
  | .comp o args =>
    match fvalAll p ρ args with
    | none => none
    | some vs =>
      match o, vs with
      | .add, [a, b] => some ((a + b) % p)
      | .mul, [a, b] => some ((a * b) % p)
      | .other k, vs => some (ρ.op k vs)
      | _, _ => none

/-- Operands of an operation. -/
def fvalAll (p : Int) (ρ : Env) : List IR → Option (List Int)
  | [] => some []
  | i :: is =>
    match fval p ρ i with
    | none => none
    | some v =>
      match fvalAll p ρ is with
      | none => none
      | some vs => some (v :: vs)
end

/-- 64-bit limb `i` of a number below `2^256`. -/
def limb (i : Nat) (x : Int) : Int := x / 2 ^ (64 * i) % 2 ^ 64

/-- `Fr_toInt` of the C++ witness programs on the element `v` in `[0, p)` (code_producers/src/c_elements/bn128/fr.asm:275-360
and the same routine of the other primes but goldilocks).  Elements below `2^31` give themselves (`Fr_longNormal`; short
elements give their signed value, which for non-negative ones is the same).  Otherwise `Fr_longNeg` subtracts the prime limb
by limb and only looks at the borrow of each limb (`jnc`) and at the lowest difference, which must be in `[-2^31, 0)`; in
all other cases `Fr_fail` aborts. -/
def toIntC (p v : Int) : Option Int :=
  if v < 2 ^ 31 then some v
  else if limb 0 v < limb 0 p ∧ limb 1 v ≤ limb 1 p ∧ limb 2 v ≤ limb 2 p ∧ limb 3 v ≤ limb 3 p
      ∧ -2 ^ 31 ≤ limb 0 v - limb 0 p then some (limb 0 v - limb 0 p)
  else none

/-- The representative of `v` in `(-p/2, p/2]`, i.e. the number `Fr_toInt` is about. -/
def centred (p v : Int) : Int := if v ≤ p / 2 then v else v - p

/-- `Fr_toInt` of the wasm programs (code_producers/src/wasm_elements/bn128/fr-code.wat:9368-9388: the low 32 bits, negated
when the element is negative; goldilocks/fr.hpp:25-28 of the C++ programs is the same): never fails, 32-bit word. -/
def toIntW (p v : Int) : Int := centred p v % 2 ^ 32

mutual
/-- Value of an address instruction in the C++ programs (compute_bucket.rs:355-363, value_bucket.rs:78-92): `int`
arithmetic; leaving the range of `int` is undefined behaviour, written `none` like the abort of `Fr_toInt`.  Literals are
taken at their value, whatever their type. -/
def caddr (p : Int) (ρ : Env) : IR → Option Int
  | .u32 n => some n
  | .big _ => none
  | .load _ => none
  | .comp .toAddress args =>
    match fvalAll p ρ args with
    | some [v] => toIntC p v
    | _ => none
  | .comp .addAddress args =>
    match caddrAll p ρ args with
    | some [a, b] => if -2 ^ 31 ≤ a + b ∧ a + b < 2 ^ 31 then some (a + b) else none
    | _ => none
  | .comp .mulAddress args =>
    match caddrAll p ρ args with
    | some [a, b] => if -2 ^ 31 ≤ a * b ∧ a * b < 2 ^ 31 then some (a * b) else none
    | _ => none
  | .comp _ _ => none

/-- Operands. -/
def caddrAll (p : Int) (ρ : Env) : List IR → Option (List Int)
  | [] => some []
  | i :: is =>
    match caddr p ρ i with
    | none => none
    | some v =>
      match caddrAll p ρ is with
      | none => none
      | some vs => some (v :: vs)
end

mutual
/-- Value of an address instruction in the wasm programs (compute_bucket.rs:164-172, value_bucket.rs:57-59): 32-bit words,
`i32.add` and `i32.mul` wrap; `i32.const` with a number that needs more than 32 bits is rejected by the assembler. -/
def waddr (p : Int) (ρ : Env) : IR → Option Int
  | .u32 n => if n < 2 ^ 32 then some n else none
  | .big _ => none
  | .load _ => none
  | .comp .toAddress args =>
    match fvalAll p ρ args with
    | some [v] => some (toIntW p v)
    | _ => none
  | .comp .addAddress args =>
    match waddrAll p ρ args with
    | some [a, b] => some ((a + b) % 2 ^ 32)
    | _ => none
  | .comp .mulAddress args =>
    match waddrAll p ρ args with
    | some [a, b] => some ((a * b) % 2 ^ 32)
    | _ => none
  | .comp _ _ => none

/-- Operands. -/
def waddrAll (p : Int) (ρ : Env) : List IR → Option (List Int)
  | [] => some []
  | i :: is =>
    match waddr p ρ i with
    | none => none
    | some v =>
      match waddrAll p ρ is with
      | none => none
      | some vs => some (v :: vs)
end

mutual
/-- Value of an address instruction over unbounded integers, with `Fr_toInt` replaced by the centred representative: the
number both programs approximate. -/
def zaddr (p : Int) (ρ : Env) : IR → Option Int
  | .u32 n => some n
  | .big _ => none
  | .load _ => none
  | .comp .toAddress args =>
    match fvalAll p ρ args with
    | some [v] => some (centred p v)
    | _ => none
  | .comp .addAddress args =>
    match zaddrAll p ρ args with
    | some [a, b] => some (a + b)
    | _ => none
  | .comp .mulAddress args =>
    match zaddrAll p ρ args with
    | some [a, b] => some (a * b)
    | _ => none
  | .comp _ _ => none

/-- Operands. -/
def zaddrAll (p : Int) (ρ : Env) : List IR → Option (List Int)
  | [] => some []
  | i :: is =>
    match zaddr p ρ i with
    | none => none
    | some v =>
      match zaddrAll p ρ is with
      | none => none
      | some vs => some (v :: vs)
end

end Verif.Address
