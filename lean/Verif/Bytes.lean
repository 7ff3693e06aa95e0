import Mathlib.Data.Nat.Digits.Lemmas

/-!
# Byte encodings of integers (num-bigint-dig, external) used by the writers and the constraint storage

A byte string is a `List Nat` with entries below 256; `Verif/BytesLemmas.lean` proves that bound for everything produced.
-/

namespace Verif.Bytes

/-- `BigUint::to_bytes_le` (external): least significant byte first, no leading zero bytes, `[0]` for zero. -/
def toBytesLE (n : Nat) : List Nat := if n = 0 then [0] else Nat.digits 256 n

/-- `BigUint::from_bytes_le` (external). -/
def fromBytesLE (l : List Nat) : Nat := Nat.ofDigits 256 l

/-- Two's complement of a byte string (external, `twos_complement_le`): invert and add the carry. -/
def twos : Bool → List Nat → List Nat
  | _, [] => []
  | true, d :: ds => (255 - d + 1) % 256 :: twos (decide ((255 - d + 1) % 256 = 0)) ds
  | false, d :: ds => (255 - d) :: twos false ds

/-- The extra byte of `to_signed_bytes_le` (external): when the top bit of the magnitude is used, except for `-2^(8k-1)`. -/
def extend (negative : Bool) (b : List Nat) : List Nat :=
  let last := b.getLast?.getD 0
  if 0x7f < last ∧ ¬ (last = 0x80 ∧ (∀ x ∈ b.dropLast, x = 0) ∧ negative = true) then b ++ [0] else b

/-- `BigInt::to_signed_bytes_le` (external). -/
def toSignedBytesLE (x : Int) : List Nat :=
  let b := extend (decide (x < 0)) (toBytesLE x.natAbs)
  if x < 0 then twos true b else b

/-- `BigInt::from_signed_bytes_le` (external). -/
def fromSignedBytesLE (l : List Nat) : Int :=
  match l.getLast? with
  | none => 0
  | some v => if 0x7f < v then -(fromBytesLE (twos true l) : Int) else fromBytesLE l

/-- constraint_writers/src/r1cs_writer.rs:16-23 `into_format`: pad with zero bytes, never truncate. -/
def intoFormat (number : List Nat) (withBytes : Nat) : List Nat :=
  number ++ List.replicate (withBytes - number.length) 0

/-- constraint_writers/src/r1cs_writer.rs:25-28 `bigint_as_bytes`: the sign is dropped. -/
def bigintAsBytes (number : Int) (withBytes : Nat) : List Nat := intoFormat (toBytesLE number.natAbs) withBytes

end Verif.Bytes
