import Verif.Ir
import Verif.ModArith

/-!
# Model of `code_producers/src/c_elements/goldilocks/fr.hpp`

The field arithmetic of the generated C++ program when the prime is `goldilocks`.  `uint64_t` is `Nat`; every operation of C that can
leave the range is reduced modulo `2^64` as in C.  `none` is a result that C does not define: a division by zero, or the value that
`mpz_invert` leaves when there is no inverse.
-/

namespace Verif.Gold

open Verif.Ir

/-- goldilocks/fr.hpp:11. -/
def P : Nat := 18446744069414584321

/-- goldilocks/fr.hpp:13. -/
def half : Nat := 9223372034707292160

/-- `a + b` on `uint64_t`. -/
def wadd (a b : Nat) : Nat := (a + b) % 2 ^ 64

/-- `a - b` on `uint64_t`. -/
def wsub (a b : Nat) : Nat := (a + (2 ^ 64 - b)) % 2 ^ 64

/-- `a * b` on `uint64_t`. -/
def wmul (a b : Nat) : Nat := a * b % 2 ^ 64

/-- `a << k` on `uint64_t`, for `k < 64`. -/
def wshl (a k : Nat) : Nat := a * 2 ^ k % 2 ^ 64

/-- `(int) x`: the low 32 bits in two's complement. -/
def toInt32 (x : Nat) : Int := if x % 2 ^ 32 < 2 ^ 31 then (x % 2 ^ 32 : Nat) else (x % 2 ^ 32 : Nat) - 2 ^ 32

/-- goldilocks/fr.hpp:25-28.  `none`: the negation of the smallest `int`, which C does not define. -/
def toInt (a : Nat) : Option Int :=
  if half < a then
    let i := toInt32 (wsub P a)
    if i = -2 ^ 31 then none else some (-i)
  else some (toInt32 a)

/-- goldilocks/fr.hpp:43-55. -/
def add (a b : Nat) : Nat :=
  if a ≤ half then
    if half < b then
      let bn := wsub P b
      if bn ≤ a then wsub a bn else wadd a b
    else wadd a b
  else
    let an := wsub P a
    if b < an then wadd a b else wsub b an

/-- goldilocks/fr.hpp:57-59. -/
def sub (a b : Nat) : Nat := if b ≤ a then wsub a b else wsub P (wsub b a)

/-- goldilocks/fr.hpp:64-88. -/
def mul (a b : Nat) : Nat :=
  let a0 := a % 2 ^ 32
  let a1 := a / 2 ^ 32
  let b0 := b % 2 ^ 32
  let b1 := b / 2 ^ 32
  let a0b0 := wmul a0 b0
  let a0b1 := wmul a0 b1
  let a1b0 := wmul a1 b0
  let a1b1 := wmul a1 b1
  let res32 := add (add a1b1 a1b0) a0b1
  let res0 := sub a0b0 a1b1
  let res32_0 := res32 % 2 ^ 32
  let res32_1 := res32 / 2 ^ 32
  let res32_1_aux := wshl res32_1 32
  let res32_0 := wshl res32_0 32
  let aux := sub (add res32_1_aux res32_0) res32_1
  add aux res0

/-- goldilocks/fr.hpp:102-109: the number is put together from halves of 32 bits. -/
def rejoin (mr : Int) : Nat := wadd (wshl (mr.toNat / 2 ^ 32 % 2 ^ 32) 32) (mr.toNat % 2 ^ 32)

/-- goldilocks/fr.hpp:90-112.  The number is taken apart in halves of 32 bits (lines 91-96); `mpz_invert` is external
(`ModArith.modInverse`). -/
def inv (a : Nat) : Option Nat :=
  (ModArith.modInverse ((a / 2 ^ 32 % 2 ^ 32 * 2 ^ 32 + a % 2 ^ 32 : Nat) : Int) P).map rejoin

/-- goldilocks/fr.hpp:114-117. -/
def div (a b : Nat) : Option Nat := (inv b).map (mul a)

/-- goldilocks/fr.hpp:119-121. -/
def idiv (a b : Nat) : Option Nat := if b = 0 then none else some (a / b)

/-- goldilocks/fr.hpp:123-125. -/
def mod (a b : Nat) : Option Nat := if b = 0 then none else some (a % b)

/-- The loop of goldilocks/fr.hpp:131-139; `bo` decreases in each turn, so `fuel = bo` turns are enough. -/
def powLoop : Nat → Nat → Nat → Nat → Nat
  | 0, p, _, _ => p
  | fuel + 1, p, ao, bo =>
    if bo = 0 then p
    else if bo % 2 = 0 then powLoop fuel p (mul ao ao) (bo / 2)
    else powLoop fuel (mul p ao) ao (bo - 1)

/-- goldilocks/fr.hpp:127-141. -/
def pow (a b : Nat) : Nat := powLoop b 1 a b

/-- goldilocks/fr.hpp:147-149: `Fr_shl` without its first line. -/
def shlSmall (a b : Nat) : Nat :=
  if 64 ≤ b then 0
  else
    let s := wshl a b
    if s < P then s else wsub s P

/-- goldilocks/fr.hpp:171-174: `Fr_shr` without its first line. -/
def shrSmall (a b : Nat) : Nat := if 64 ≤ b then 0 else a / 2 ^ b

/-- goldilocks/fr.hpp:145-150.  The call of `Fr_shr` with `P - b`, which is not above `half`, is followed to its end. -/
def shl (a b : Nat) : Nat := if half < b then shrSmall a (wsub P b) else shlSmall a b

/-- goldilocks/fr.hpp:169-175.  The call of `Fr_shl` likewise. -/
def shr (a b : Nat) : Nat := if half < b then shlSmall a (wsub P b) else shrSmall a b

/-- A C comparison as a number. -/
def bit (b : Bool) : Nat := if b then 1 else 0

/-- goldilocks/fr.hpp:177-185. -/
def leq (a b : Nat) : Nat :=
  if a ≤ half then (if b ≤ half then bit (a ≤ b) else 0) else (if b ≤ half then 1 else bit (a ≤ b))

/-- goldilocks/fr.hpp:187-195. -/
def geq (a b : Nat) : Nat :=
  if a ≤ half then (if b ≤ half then bit (b ≤ a) else 1) else (if b ≤ half then 0 else bit (b ≤ a))

/-- goldilocks/fr.hpp:197-205. -/
def lt (a b : Nat) : Nat :=
  if a ≤ half then (if b ≤ half then bit (a < b) else 0) else (if b ≤ half then 1 else bit (a < b))

/-- goldilocks/fr.hpp:207-215. -/
def gt (a b : Nat) : Nat :=
  if a ≤ half then (if b ≤ half then bit (b < a) else 1) else (if b ≤ half then 0 else bit (b < a))

/-- goldilocks/fr.hpp:217-219. -/
def eq (a b : Nat) : Nat := bit (a = b)

/-- goldilocks/fr.hpp:221-226.  Arrays are functions; only the first `n` positions are read. -/
def eqN (a b : Nat → Nat) : Nat → Nat
  | 0 => 1
  | n + 1 => if eqN a b n = 0 then 0 else if a n ≠ b n then 0 else 1

/-- goldilocks/fr.hpp:228-230. -/
def neq (a b : Nat) : Nat := bit (a ≠ b)

/-- goldilocks/fr.hpp:232-234. -/
def lor (a b : Nat) : Nat := if a = 0 ∧ b = 0 then 0 else 1

/-- goldilocks/fr.hpp:236-238. -/
def land (a b : Nat) : Nat := if a = 0 ∨ b = 0 then 0 else 1

/-- goldilocks/fr.hpp:240-243. -/
def bor (a b : Nat) : Nat := if a ||| b < P then a ||| b else wsub (a ||| b) P

/-- goldilocks/fr.hpp:245-247. -/
def band (a b : Nat) : Nat := a &&& b

/-- goldilocks/fr.hpp:249-252. -/
def bxor (a b : Nat) : Nat := if a ^^^ b < P then a ^^^ b else wsub (a ^^^ b) P

/-- goldilocks/fr.hpp:254-257. -/
def neg (a : Nat) : Nat := if a = 0 then a else wsub P a

/-- goldilocks/fr.hpp:259-261. -/
def lnot (a : Nat) : Nat := if a = 0 then 1 else 0

/-- goldilocks/fr.hpp:263-265. -/
def isTrue (a : Nat) : Bool := decide (a ≠ 0)

/-- goldilocks/fr.hpp:267-270. -/
def bnot (a : Nat) : Nat :=
  let n := 2 ^ 64 - 1 - a
  if n < P then n else wsub n P

/-- The function called for each operator with two operands: `get_fr_op` (compute_bucket.rs:315-341).  `Eq` on one element; on
several it is `eqN`. -/
def infixOp (o : Infix) (a b : Nat) : Option Nat :=
  match o with
  | .mul => some (mul a b)
  | .div => div a b
  | .add => some (add a b)
  | .sub => some (sub a b)
  | .pow => some (pow a b)
  | .intDiv => idiv a b
  | .mod => mod a b
  | .shiftL => some (shl a b)
  | .shiftR => some (shr a b)
  | .lesserEq => some (leq a b)
  | .greaterEq => some (geq a b)
  | .lesser => some (lt a b)
  | .greater => some (gt a b)
  | .eq => some (eq a b)
  | .notEq => some (neq a b)
  | .boolOr => some (lor a b)
  | .boolAnd => some (land a b)
  | .bitOr => some (bor a b)
  | .bitAnd => some (band a b)
  | .bitXor => some (bxor a b)

/-- The same for one operand (compute_bucket.rs:337-339). -/
def prefixOp (o : Prefix) (a : Nat) : Nat :=
  match o with
  | .sub => neg a
  | .boolNot => lnot a
  | .complement => bnot a

end Verif.Gold
