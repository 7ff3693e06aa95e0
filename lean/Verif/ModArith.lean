import Mathlib.Data.Int.Bitwise
import Mathlib.Data.Int.GCD
import Mathlib.Data.Nat.Digits.Defs

/-!
# Model of `circom_algebra/src/modular_arithmetic.rs`

`BigInt` is `Int`.  Rust's `/` and `%` on `BigInt` truncate toward zero (`Int.tdiv`, `Int.tmod`).
`field` is always one of the positive primes of `program_structure/src/utils/constants.rs:8-45`, so
`x % field` itself never aborts; only `mod_op` takes a remainder by a computed value.
-/

namespace Verif.ModArith

/-- Failure outcomes.  The first two are `ArithmeticError` (modular_arithmetic.rs:4-7); `panic` is an abort
(`unwrap` on `None`, `BigInt` division by zero, negative exponent in `modpow`).  `outOfFuel` is not an outcome of the
code: it marks that the iteration bound given to a modelled `loop` was too small (theorems bound the fuel needed). -/
inductive Fail where
  | divisionByZero
  | bitOverflowInShift
  | panic
  | outOfFuel
  deriving DecidableEq, Repr

abbrev Res (α : Type) := Except Fail α

/-- modular_arithmetic.rs:9-11, for a non-zero `b`. -/
def modulus (a b : Int) : Int := ((a.tmod b) + b).tmod b

/-- modular_arithmetic.rs:9-11 for an arbitrary `b`: `BigInt` remainder by zero aborts. -/
def modulusR (a b : Int) : Res Int := if b = 0 then .error .panic else .ok (modulus a b)

/-- modular_arithmetic.rs:14-16 (`to_radix_le(2)`, magnitude part; num-bigint returns `[0]` for zero). -/
def bitRepresentation (elem : Int) : List Nat :=
  if elem = 0 then [0] else Nat.digits 2 elem.natAbs

/-- `BigInt::bits()` of num-bigint: number of significant bits of the magnitude (0 for 0). -/
def bits (x : Int) : Nat := (Nat.digits 2 x.natAbs).length

/-- modular_arithmetic.rs:18-23. -/
def mask (field : Int) : Int := 2 ^ (bitRepresentation field).length - 1

/-- modular_arithmetic.rs:26-30. -/
def add (left right field : Int) : Int := modulus (left + right) field

/-- modular_arithmetic.rs:31-35. -/
def mul (left right field : Int) : Int := modulus (left * right) field

/-- modular_arithmetic.rs:36-40. -/
def sub (left right field : Int) : Int := modulus (left - right) field

/-- `ModInverse` of num-bigint-dig (external): `None` iff the gcd is not one, otherwise a Bezout coefficient
reduced into `[0, m)`. -/
def modInverse (a m : Int) : Option Int :=
  if Int.gcd a m = 1 then some ((Int.gcdA (a % m) m) % m) else none

/-- modular_arithmetic.rs:41-47. -/
def div (left right field : Int) : Res Int :=
  match modInverse right field with
  | none => .error .divisionByZero
  | some rightInverse => .ok (mul left rightInverse field)

/-- modular_arithmetic.rs:48-57. -/
def idiv (left right field : Int) : Res Int :=
  let left := modulus left field
  let right := modulus right field
  if right = 0 then .error .divisionByZero else .ok (left.tdiv right)

/-- modular_arithmetic.rs:58-62.  Note the missing zero test: `modulus(&left, &right)` aborts when
`right` is zero after reduction. -/
def modOp (left right field : Int) : Res Int :=
  let left := modulus left field
  let right := modulus right field
  modulusR left right

/-- The loop of `BigUint::modpow` (external crate; binary exponentiation).  `fuel` bounds the number of bits. -/
def modpowLoop : Nat → Int → Nat → Int → Int → Int
  | 0, _, _, _, acc => acc
  | fuel + 1, base, e, m, acc =>
    if e = 0 then acc
    else
      let acc := if e % 2 = 1 then (acc * base) % m else acc
      modpowLoop fuel ((base * base) % m) (e / 2) m acc

/-- `BigInt::modpow` for a non-negative exponent. -/
def modpow (base : Int) (e : Nat) (m : Int) : Int :=
  modpowLoop e (base % m) e m (1 % m)

/-- modular_arithmetic.rs:63-65; `modpow` aborts on a negative exponent. -/
def pow (base exp field : Int) : Res Int :=
  if exp < 0 then .error .panic else .ok (modpow base exp.toNat field)

/-- modular_arithmetic.rs:66-69. -/
def prefixSub (elem field : Int) : Int := mul elem (-1) field

/-- modular_arithmetic.rs:72-79: `partials` after the loop, `acc` being the last element pushed so far. -/
def partials (field : Int) : Int → List Int → List Int
  | acc, [] => [acc]
  | acc, v :: vs => acc :: partials field (mul acc v field) vs

/-- modular_arithmetic.rs:84-89.  `rest` is the list of pairs `(partials[i-1], values[i-1])` for
`i = len, len-1, …, 1`; outputs are accumulated from the last position to the first. -/
def multiInvBack (field : Int) : List (Int × Int) → Int → List Int → List Int
  | [], _, out => out
  | (part, v) :: rest, inverse, out =>
    multiInvBack field rest (mul inverse v field) (mul part inverse field :: out)

/-- modular_arithmetic.rs:71-91.  The result has one more entry than `values` (the untouched `0` at the end,
line 83).  `.ok().unwrap()` at line 82 aborts when the product is not invertible. -/
def multiInv (values : List Int) (field : Int) : Res (List Int) :=
  let parts := partials field 1 values
  match parts.getLast? with
  | none => .error .panic
  | some total =>
    match div 1 total field with
    | .error _ => .error .panic
    | .ok inverse => .ok (multiInvBack field (parts.zip values).reverse inverse [0])

/-- modular_arithmetic.rs:94-109.  `Sign::NoSign` only occurs for zero, where line 96 uses `Plus`. -/
def complement (elem field : Int) : Int :=
  let neg := decide (elem < 0)
  let bitRepr := bitRepresentation elem
  let nbits := bits field
  let bitRepr := bitRepr.take nbits                                              -- lines 98-100
  let bitRepr := bitRepr ++ List.replicate (nbits - bitRepr.length) 0            -- lines 101-103
  let bitRepr := bitRepr.map fun bit => if bit = 0 then 1 else 0                 -- lines 104-106
  let mag : Int := (Nat.ofDigits 2 bitRepr : Nat)
  let cp := if neg then -mag else mag
  modulus cp field

/-- `to_usize()` on a 64-bit target. -/
def toUsize (x : Int) : Option Nat := if 0 ≤ x ∧ x < 2 ^ 64 then some x.toNat else none

/-- modular_arithmetic.rs:111-136: `shift_l` (`isLeft = true`) and `shift_r` (`isLeft = false`), which
call each other.  Note that the conversion failure is reported with the value `DivisionByZero`. -/
def shift (isLeft : Bool) (left right field : Int) : Res Int :=
  let top := field.tdiv 2
  if right ≤ top then
    match toUsize right with
    | none => .error .divisionByZero
    | some k =>
      if isLeft then .ok (modulus (Int.land (left * 2 ^ k) (mask field)) field)
      else .ok (left.tdiv (2 ^ k))
  else shift (!isLeft) left (field - right) field
termination_by (if right ≤ field.tdiv 2 then 0 else 1 : Nat)
decreasing_by
  rename_i h
  have h1 : field - right ≤ field.tdiv 2 := by
    have := Int.mul_tdiv_add_tmod field 2
    have h2 : field.tmod 2 < 2 := Int.tmod_lt_of_pos _ (by decide)
    omega
  rw [if_pos h1, if_neg h]
  decide

/-- modular_arithmetic.rs:111-123. -/
def shiftL (left right field : Int) : Res Int := shift true left right field

/-- modular_arithmetic.rs:124-136. -/
def shiftR (left right field : Int) : Res Int := shift false left right field

/-- modular_arithmetic.rs:137-139. -/
def bitOr (left right field : Int) : Int := modulus (Int.lor left right) field

/-- modular_arithmetic.rs:140-142. -/
def bitAnd (left right field : Int) : Int := modulus (Int.land left right) field

/-- modular_arithmetic.rs:143-145. -/
def bitXor (left right field : Int) : Int := modulus (Int.xor left right) field

/-- modular_arithmetic.rs:154-161. -/
def val (elem field : Int) : Int :=
  let c := field.tdiv 2 + 1
  if c ≤ elem ∧ elem < field then elem - field else elem

/-- modular_arithmetic.rs:162-164. -/
def comparableElement (elem field : Int) : Int := val (modulus elem field) field

/-- modular_arithmetic.rs:165-173. -/
def normalize (elem field : Int) : Int := if comparableElement elem field = 0 then 0 else 1

/-- modular_arithmetic.rs:174-176. -/
def asBool (elem field : Int) : Bool := normalize elem field ≠ 0

/-- modular_arithmetic.rs:177-179. -/
def not (elem field : Int) : Int := (normalize elem field + 1).tmod 2

/-- modular_arithmetic.rs:183-185. -/
def boolAnd (left right field : Int) : Int := normalize left field * normalize right field

/-- modular_arithmetic.rs:180-182. -/
def boolOr (left right field : Int) : Int :=
  (normalize left field + normalize right field + boolAnd left right field).tmod 2

/-- modular_arithmetic.rs:186-194. -/
def eq (left right field : Int) : Int := if modulus left field = modulus right field then 1 else 0

/-- modular_arithmetic.rs:195-203. -/
def lesser (left right field : Int) : Int :=
  if comparableElement left field < comparableElement right field then 1 else 0

/-- modular_arithmetic.rs:204-206. -/
def notEq (left right field : Int) : Int := not (eq left right field) field

/-- modular_arithmetic.rs:207-209. -/
def lesserEq (left right field : Int) : Int := boolOr (lesser left right field) (eq left right field) field

/-- modular_arithmetic.rs:210-212. -/
def greater (left right field : Int) : Int := not (lesserEq left right field) field

/-- modular_arithmetic.rs:213-215. -/
def greaterEq (left right field : Int) : Int := boolOr (greater left right field) (eq left right field) field

end Verif.ModArith
