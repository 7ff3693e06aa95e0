import Verif.WFrInt
import Verif.Ir

/-!
# Run-time arithmetic in WebAssembly: elements

Model of the functions `Fr_*` of `/repo/code_producers/src/wasm_elements/bn128/fr-code.wat` that the instructions generated for a circuit call
(`/repo/compiler/src/intermediate_representation/compute_bucket.rs:139-307`), and of the same functions for the other primes.

An element is 8 bytes, the short number and the flags, and the limbs.  The functions take addresses, read and write the memory, and many of
them convert an operand in its place; the model keeps this: a memory has an element at each address where one starts.

Simplifications.
* Elements do not overlap: an address is the place of one element (in the code the address `p + 8`, of the limbs of the element at `p`).
* The short number is the signed number in the 32 bits.  Functions that write a number to these bits check before that it fits.
-/

namespace Verif.WFr

open Verif.Frg (El w qbits n64 R limb)
open Verif.Ir (Infix Prefix)

/-- Element at each address. -/
abbrev Mem := Nat → El

/-- An element replaced. -/
def put (m : Mem) (p : Nat) (e : El) : Mem := fun a => if a = p then e else m a

/-- `i32.store offset=4`: `-1073741824`, `-2147483648`, `1073741824` and `0` are the two flags, the one for long, the one for Montgomery
and none. -/
def flags (m : Mem) (p : Nat) (long mont : Bool) : Mem := put m p { m p with long := long, mont := mont }

/-- The limbs, at `p + 8`. -/
def setRaw (m : Mem) (p : Nat) (raw : Nat) : Mem := put m p { m p with raw := raw }

/-- `i64.store32`, `i32.store`: the short number. -/
def setShort (m : Mem) (p : Nat) (v : Int) : Mem := put m p { m p with short := v }

/-- `i64.store` of a small number: the flags are cleared. -/
def setWord (m : Mem) (p : Nat) (v : Int) : Mem := put m p { m p with short := v, long := false, mont := false }

/-- The first scratch element, at 8 for all primes; its limbs are at 16. -/
def s1 : Nat := 8

/-- The second scratch element: 48 for four words, 24 for `goldilocks`. -/
def s2 (q : Nat) : Nat := 8 + 8 * (n64 q + 1)

/-- The element with the number of bits of the prime (`fr-data.wat:3`): 88 for four words, 40 for `goldilocks`. -/
def cBits (q : Nat) : Nat := 8 + 16 * (n64 q + 1)

/-- `Fr_int_zero` (`fr-code.wat:21-35`) called with the address of an element, in `Fr_shl` and `Fr_shr`: `n64` words from there are zero, so the
highest word of the limbs stays. -/
def zeroEl (q : Nat) (m : Mem) (p : Nat) : Mem := put m p ⟨0, false, false, limb (n64 q - 1) (m p).raw * w ^ (n64 q - 1)⟩

/-- `Fr_isTrue` (`fr-code.wat:9095-9114`). -/
def isTrue (q : Nat) (m : Mem) (p : Nat) : Bool :=
  if (m p).long then !intIsZero q (m p).raw else (m p).short != 0

/-- `Fr_rawCopyS2L` (`fr-code.wat:9115-9155`): the limbs of a signed number. -/
def s2l (q : Nat) (v : Int) : Nat := if 0 < v then v.toNat else f1mNeg q (-v).toNat

/-- `Fr_toMontgomery` (`fr-code.wat:9156-9199`). -/
def toMontgomery (q : Nat) (m : Mem) (p : Nat) : Mem :=
  if (m p).mont then m
  else if (m p).long then
    let m := flags m p true true
    setRaw m p (f1mToMont q (m p).raw)
  else
    let m := setRaw m p (s2l q (m p).short)
    let m := setRaw m p (f1mToMont q (m p).raw)
    flags m p false true

/-- `Fr_toNormal` (`fr-code.wat:9200-9224`). -/
def toNormal (q : Nat) (m : Mem) (p : Nat) : Mem :=
  if (m p).mont then
    if (m p).long then
      let m := flags m p true false
      setRaw m p (f1mFromMont q (m p).raw)
    else m
  else m

/-- The lines that make an element long, without Montgomery flag if it was short (`fr-code.wat:9824-9839` and others). -/
def toLong (q : Nat) (m : Mem) (p : Nat) : Mem :=
  if (m p).long then m
  else
    let m := setRaw m p (s2l q (m p).short)
    flags m p true false

/-- `Fr_toLongNormal` (`fr-code.wat:9225-9259`). -/
def toLongNormal (q : Nat) (m : Mem) (p : Nat) : Mem :=
  if (m p).long then
    if (m p).mont then
      let m := flags m p true false
      setRaw m p (f1mFromMont q (m p).raw)
    else m
  else
    let m := setRaw m p (s2l q (m p).short)
    flags m p true false

/-- `Fr_isNegative` (`fr-code.wat:9260-9281`); half of the prime is at 1920. -/
def isNegative (q : Nat) (m : Mem) (p : Nat) : Mem × Bool :=
  if (m p).long then
    let m := toNormal q m p
    (m, intGt q (m p).raw (q / 2))
  else (m, decide ((m p).short < 0))

/-- The lines that write a number of 64 bits, short if it fits (lines 9318-9345 of `fr-code.wat` and others). -/
def store (q : Nat) (m : Mem) (r : Nat) (v : Int) : Mem :=
  if v / 2 ^ 31 = 0 ∨ v / 2 ^ 31 + 1 = 0 then flags (setShort m r v) r false false
  else
    let m := flags m r true false
    setRaw m r (s2l q v)

/-- `Fr_neg` (`fr-code.wat:9282-9347`). -/
def neg (q : Nat) (m : Mem) (r a : Nat) : Mem :=
  if (m a).long then
    let m := if (m a).mont then flags m r true true else flags m r true false
    setRaw m r (f1mNeg q (m a).raw)
  else store q m r (-(m a).short)

/-- `Fr_getLsb32` (`fr-code.wat:9348-9367`): an unsigned number of 32 bits. -/
def getLsb32 (q : Nat) (m : Mem) (a : Nat) : Mem × Nat :=
  if (m a).long then
    let m := toNormal q m a
    (m, (m a).raw % 2 ^ 32)
  else (m, ((m a).short % 2 ^ 32).toNat)

/-- `Fr_toInt` (`fr-code.wat:9368-9388`). -/
def toInt (q : Nat) (m : Mem) (a : Nat) : Mem × Nat :=
  let p := isNegative q m a
  if p.2 then
    let m := neg q p.1 s1 a
    let g := getLsb32 q m s1
    (g.1, (2 ^ 32 - g.2) % 2 ^ 32)
  else getLsb32 q p.1 a

/-- `Fr_add` (`fr-code.wat:9389-9601`) and `Fr_sub` (9602-9814): they differ in the function on limbs and in the one on short numbers. -/
def linear (q : Nat) (f : Nat → Nat → Nat) (g : Int → Int → Int) (m : Mem) (r a b : Nat) : Mem :=
  if (m a).long then
    if (m b).long then
      if (m a).mont then
        if (m b).mont then
          let m := flags m r true true
          setRaw m r (f (m a).raw (m b).raw)
        else
          let m := toMontgomery q m b
          let m := flags m r true true
          setRaw m r (f (m a).raw (m b).raw)
      else
        if (m b).mont then
          let m := toMontgomery q m a
          let m := flags m r true true
          setRaw m r (f (m a).raw (m b).raw)
        else
          let m := flags m r true false
          setRaw m r (f (m a).raw (m b).raw)
    else
      if (m a).mont then
        let m := toMontgomery q m b
        let m := flags m r true true
        setRaw m r (f (m a).raw (m b).raw)
      else
        let m := flags m r true false
        let m := setRaw m s1 (s2l q (m b).short)
        setRaw m r (f (m a).raw (m s1).raw)
  else
    if (m b).long then
      if (m b).mont then
        let m := toMontgomery q m a
        let m := flags m r true true
        setRaw m r (f (m a).raw (m b).raw)
      else
        let m := flags m r true false
        let m := setRaw m s1 (s2l q (m a).short)
        setRaw m r (f (m s1).raw (m b).raw)
    else store q m r (g (m a).short (m b).short)

/-- `Fr_add`. -/
def add (q : Nat) (m : Mem) (r a b : Nat) : Mem := linear q (f1mAdd q) (· + ·) m r a b

/-- `Fr_sub`. -/
def sub (q : Nat) (m : Mem) (r a b : Nat) : Mem := linear q (f1mSub q) (· - ·) m r a b

/-- The part of `Fr_eqR` for long elements (`fr-code.wat:9840-9920`, and again 9943-10023). -/
def eqLong (q : Nat) (m : Mem) (a b : Nat) : Mem × Bool :=
  if (m a).mont then
    if (m b).mont then (m, intEq q (m a).raw (m b).raw)
    else
      let m := toNormal q m a
      (m, intEq q (m a).raw (m b).raw)
  else
    if (m b).mont then
      let m := toNormal q m b
      (m, intEq q (m a).raw (m b).raw)
    else (m, intEq q (m a).raw (m b).raw)

/-- `Fr_eqR` (`fr-code.wat:9815-10040`). -/
def eqR (q : Nat) (m : Mem) (a b : Nat) : Mem × Bool :=
  if (m a).long then
    let m := toLong q m b
    eqLong q m a b
  else
    if (m b).long then
      let m := toLong q m a
      eqLong q m a b
    else (m, (m a).short == (m b).short)

/-- The part of `Fr_gtR` for long elements (`fr-code.wat:10066-10116`, and again 10139-10189). -/
def gtLong (q : Nat) (m : Mem) (a b : Nat) : Mem × Bool :=
  let m := toNormal q m a
  let m := toNormal q m b
  let na := isNegative q m a
  if na.2 then
    let nb := isNegative q na.1 b
    if nb.2 then (nb.1, intGt q (nb.1 a).raw (nb.1 b).raw) else (nb.1, false)
  else
    let nb := isNegative q na.1 b
    if nb.2 then (nb.1, true) else (nb.1, intGt q (nb.1 a).raw (nb.1 b).raw)

/-- `Fr_gtR` (`fr-code.wat:10041-10206`). -/
def gtR (q : Nat) (m : Mem) (a b : Nat) : Mem × Bool :=
  if (m a).long then
    let m := toLong q m b
    gtLong q m a b
  else
    if (m b).long then
      let m := toLong q m a
      gtLong q m a b
    else (m, decide ((m b).short < (m a).short))

/-- A truth value written (`i64.store` of 1 or 0). -/
def setBool (m : Mem) (r : Nat) (t : Bool) : Mem := if t then setWord m r 1 else setWord m r 0

/-- `Fr_eq` (`fr-code.wat:10207-10223`). -/
def eq (q : Nat) (m : Mem) (r a b : Nat) : Mem :=
  let e := eqR q m a b
  setBool e.1 r e.2

/-- `Fr_neq` (`fr-code.wat:10224-10240`). -/
def neq (q : Nat) (m : Mem) (r a b : Nat) : Mem :=
  let e := eqR q m a b
  setBool e.1 r (!e.2)

/-- `Fr_gt` (`fr-code.wat:10241-10266`). -/
def gt (q : Nat) (m : Mem) (r a b : Nat) : Mem :=
  let e := eqR q m a b
  if e.2 then setWord e.1 r 0
  else
    let g := gtR q e.1 a b
    setBool g.1 r g.2

/-- `Fr_geq` (`fr-code.wat:10267-10292`). -/
def geq (q : Nat) (m : Mem) (r a b : Nat) : Mem :=
  let e := eqR q m a b
  if e.2 then setWord e.1 r 1
  else
    let g := gtR q e.1 a b
    setBool g.1 r g.2

/-- `Fr_lt` (`fr-code.wat:10293-10318`). -/
def lt (q : Nat) (m : Mem) (r a b : Nat) : Mem :=
  let e := eqR q m a b
  if e.2 then setWord e.1 r 0
  else
    let g := gtR q e.1 a b
    setBool g.1 r (!g.2)

/-- `Fr_leq` (`fr-code.wat:10319-10344`). -/
def leq (q : Nat) (m : Mem) (r a b : Nat) : Mem :=
  let e := eqR q m a b
  if e.2 then setWord e.1 r 1
  else
    let g := gtR q e.1 a b
    setBool g.1 r (!g.2)

/-- `Fr_mul` (`fr-code.wat:10345-10561`). -/
def mul (q : Nat) (m : Mem) (r a b : Nat) : Mem :=
  if (m a).long then
    if (m b).long then
      if (m a).mont then
        if (m b).mont then
          let m := flags m r true true
          setRaw m r (f1mMul q (m a).raw (m b).raw)
        else
          let m := flags m r true false
          setRaw m r (f1mMul q (m a).raw (m b).raw)
      else
        if (m b).mont then
          let m := flags m r true false
          setRaw m r (f1mMul q (m a).raw (m b).raw)
        else
          let m := flags m r true true
          let m := setRaw m r (f1mMul q (m a).raw (m b).raw)
          setRaw m r (f1mMul q (r3 q) (m r).raw)
    else
      if (m a).mont then
        let m := toMontgomery q m b
        let m := flags m r true true
        setRaw m r (f1mMul q (m a).raw (m b).raw)
      else
        let m := toMontgomery q m b
        let m := flags m r true false
        setRaw m r (f1mMul q (m a).raw (m b).raw)
  else
    if (m b).long then
      if (m b).mont then
        let m := toMontgomery q m a
        let m := flags m r true true
        setRaw m r (f1mMul q (m a).raw (m b).raw)
      else
        let m := toMontgomery q m a
        let m := flags m r true false
        setRaw m r (f1mMul q (m a).raw (m b).raw)
    else store q m r ((m a).short * (m b).short)

/-- `Fr_idiv` (`fr-code.wat:10562-10616`); the rest goes to the first scratch element.  `none`: the program traps. -/
def idiv (q : Nat) (m : Mem) (r a b : Nat) : Option Mem :=
  let m := toLong q m a
  let m := toNormal q m a
  let m := toLong q m b
  let m := toNormal q m b
  let m := flags m r true false
  match intDiv q (m a).raw (m b).raw with
  | none => none
  | some (d, e) => some (setRaw (setRaw m r d) s1 e)

/-- `Fr_mod` (`fr-code.wat:10617-10671`). -/
def mod (q : Nat) (m : Mem) (r a b : Nat) : Option Mem :=
  let m := toLong q m a
  let m := toNormal q m a
  let m := toLong q m b
  let m := toNormal q m b
  let m := flags m r true false
  match intDiv q (m a).raw (m b).raw with
  | none => none
  | some (d, e) => some (setRaw (setRaw m s1 d) r e)

/-- `Fr_inv` (`fr-code.wat:10672-10720`). -/
def inv (q : Nat) (m : Mem) (r a : Nat) : Option Mem :=
  let m := toLong q m a
  match inverseMod q (m a).raw with
  | none => none
  | some i =>
    let m := setRaw m r i
    if (m a).mont then
      let m := flags m r true true
      some (setRaw m r (f1mMul q (m r).raw (r3 q)))
    else some (flags m r true false)

/-- `Fr_div` (`fr-code.wat:10721-10734`). -/
def div (q : Nat) (m : Mem) (r a b : Nat) : Option Mem := (inv q m r b).map fun m => mul q m r r a

/-- `Fr_pow` (`fr-code.wat:10735-10773`). -/
def pow (q : Nat) (m : Mem) (r a b : Nat) : Mem :=
  let m := toMontgomery q m a
  let m := toLong q m b
  let m := toNormal q m b
  let m := flags m r true true
  setRaw m r (f1mExp q (m a).raw (m b).raw)

/-! ## Bits -/

/-- `Fr_fixedShl` (`fr-code.wat:10774-10788`). -/
def fixedShl (a b : Nat) : Nat := if 64 ≤ b then 0 else a * 2 ^ b % w

/-- `Fr_fixedShr` (`fr-code.wat:10789-10803`). -/
def fixedShr (a b : Nat) : Nat := if 64 ≤ b then 0 else a / 2 ^ b

/-- `Fr_rawgetchunk` (`fr-code.wat:10804-10821`): the index is compared without sign, so one below zero has no word either. -/
def chunk (q x : Nat) (i : Int) : Nat := if 0 ≤ i ∧ i < n64 q then limb i.toNat x else 0

/-- Words written one after the other. -/
def ofWords (f : Nat → Nat) : Nat → Nat
  | 0 => 0
  | k + 1 => ofWords f k + f k * w ^ k

/-- `Fr_rawshll` (`fr-code.wat:10822-10886`). -/
def rawshll (q x n : Nat) : Nat :=
  ofWords (fun i => fixedShl (chunk q x (i - (n / 64 : Nat))) (n % 64) ||| fixedShr (chunk q x (i - (n / 64 : Nat) - 1)) (64 - n % 64)) (n64 q)

/-- `Fr_rawshrl` (`fr-code.wat:10887-10949`). -/
def rawshrl (q x n : Nat) : Nat :=
  ofWords (fun i => fixedShr (chunk q x (i + (n / 64 : Nat))) (n % 64) ||| fixedShl (chunk q x (i + (n / 64 : Nat) + 1)) (64 - n % 64)) (n64 q)

/-- The number in line 10955 of `fr-code.wat`: as many ones as the highest word of the prime has bits.  For the eight primes the files have
this number (`Props.WFr`). -/
def topMask (q : Nat) : Nat := 2 ^ (qbits q - 64 * (n64 q - 1)) - 1

/-- `Fr_adjustBinResult` (`fr-code.wat:10950-10974`). -/
def adjustBin (q : Nat) (m : Mem) (p : Nat) : Mem :=
  let m := setRaw m p ((m p).raw % w ^ (n64 q - 1) + (limb (n64 q - 1) (m p).raw &&& topMask q) * w ^ (n64 q - 1))
  if intGte q (m p).raw q then setRaw m p (intSub q (m p).raw q).1 else m

/-- `Fr_rawshl` (`fr-code.wat:10975-11106`). -/
def rawshl (q : Nat) (m : Mem) (r a n : Nat) : Mem :=
  if (m a).long then
    let m := toNormal q m a
    let m := setRaw m r (rawshll q (m a).raw n)
    let m := adjustBin q m r
    flags m r true false
  else
    let p := isNegative q m a
    if p.2 then
      let m := toLong q p.1 a
      let m := setRaw m r (rawshll q (m a).raw n)
      let m := adjustBin q m r
      flags m r true false
    else
      let m := p.1
      if 30 < n then
        let m := toLong q m a
        let m := setRaw m r (rawshll q (m a).raw n)
        let m := adjustBin q m r
        flags m r true false
      else store q m r ((m a).short * 2 ^ n)

/-- `Fr_rawshr` (`fr-code.wat:11107-11181`). -/
def rawshr (q : Nat) (m : Mem) (r a n : Nat) : Mem :=
  if (m a).long then
    let m := toNormal q m a
    let m := setRaw m r (rawshrl q (m a).raw n)
    flags m r true false
  else
    let p := isNegative q m a
    if p.2 then
      let m := toLong q p.1 a
      let m := setRaw m r (rawshrl q (m a).raw n)
      flags m r true false
    else
      let m := p.1
      let m := if n < 32 then setShort m r ((m a).short / 2 ^ n) else setShort m r 0
      flags m r false false

/-- `Fr_shl` (`fr-code.wat:11182-11226`) and `Fr_shr` (11227-11271): they differ in which of `Fr_rawshl` and `Fr_rawshr` is called in which
branch. -/
def shift (q : Nat) (pos neg' : Mem → Nat → Nat → Nat → Mem) (m : Mem) (r a b : Nat) : Mem :=
  let p := isNegative q m b
  if p.2 then
    let m := neg q p.1 (s2 q) b
    let m := lt q m s1 (s2 q) (cBits q)
    if (m s1).short ≠ 0 then
      let t := toInt q m (s2 q)
      neg' t.1 r a t.2
    else zeroEl q m r
  else
    let m := lt q p.1 s1 b (cBits q)
    if (m s1).short ≠ 0 then
      let t := toInt q m b
      pos t.1 r a t.2
    else zeroEl q m r

/-- `Fr_shl`. -/
def shl (q : Nat) (m : Mem) (r a b : Nat) : Mem := shift q (rawshl q) (rawshr q) m r a b

/-- `Fr_shr`. -/
def shr (q : Nat) (m : Mem) (r a b : Nat) : Mem := shift q (rawshr q) (rawshl q) m r a b

/-- `Fr_rawbandl` (`fr-code.wat:11272-11304`), `Fr_rawborl` (11548-11580) and `Fr_rawbxorl` (11824-11856). -/
def words2 (q : Nat) (f : Nat → Nat → Nat) (x y : Nat) : Nat := ofWords (fun i => f (limb i x) (limb i y)) (n64 q)

/-- The lines of `Fr_band`, `Fr_bor` and `Fr_bxor` for long operands (`fr-code.wat:11314-11364` and others). -/
def bitLong (q : Nat) (f : Nat → Nat → Nat) (m : Mem) (r a b : Nat) : Mem :=
  let m := toLong q m a
  let m := toNormal q m a
  let m := toLong q m b
  let m := toNormal q m b
  let m := setRaw m r (words2 q f (m a).raw (m b).raw)
  let m := flags m r true false
  adjustBin q m r

/-- `Fr_band` (`fr-code.wat:11305-11547`), `Fr_bor` (11581-11823) and `Fr_bxor` (11857-12099). -/
def bit2 (q : Nat) (f : Nat → Nat → Nat) (m : Mem) (r a b : Nat) : Mem :=
  if (m a).long then bitLong q f m r a b
  else
    let na := isNegative q m a
    if na.2 then bitLong q f na.1 r a b
    else
      let m := na.1
      if (m b).long then bitLong q f m r a b
      else
        let nb := isNegative q m b
        if nb.2 then bitLong q f nb.1 r a b
        else
          let m := nb.1
          flags (setShort m r (f (m a).short.toNat (m b).short.toNat)) r false false

/-- `Fr_bnot` (`fr-code.wat:12128-12161`) with `Fr_rawbnotl` (12100-12127). -/
def bnot (q : Nat) (m : Mem) (r a : Nat) : Mem :=
  let m := toLong q m a
  let m := toNormal q m a
  let m := setRaw m r (ofWords (fun i => limb i (m a).raw ^^^ (w - 1)) (n64 q))
  let m := flags m r true false
  adjustBin q m r

/-- `Fr_land` (`fr-code.wat:12162-12180`). -/
def land (q : Nat) (m : Mem) (r a b : Nat) : Mem := setBool m r (isTrue q m a && isTrue q m b)

/-- `Fr_lor` (`fr-code.wat:12181-12199`). -/
def lor (q : Nat) (m : Mem) (r a b : Nat) : Mem := setBool m r (isTrue q m a || isTrue q m b)

/-- `Fr_lnot` (`fr-code.wat:12200-12214`). -/
def lnot (q : Nat) (m : Mem) (r a : Nat) : Mem := setBool m r (!isTrue q m a)

/-- The function called for an operator (`/repo/compiler/src/intermediate_representation/compute_bucket.rs:174-288`), with the address of the
result and those of the operands.  (`Eq` of more than one element is a loop on `Fr_eq`.)  `none`: the program traps. -/
def infixOp (q : Nat) : Infix → Mem → Nat → Nat → Nat → Option Mem
  | .mul, m, r, a, b => some (mul q m r a b)
  | .div, m, r, a, b => div q m r a b
  | .add, m, r, a, b => some (add q m r a b)
  | .sub, m, r, a, b => some (sub q m r a b)
  | .pow, m, r, a, b => some (pow q m r a b)
  | .intDiv, m, r, a, b => idiv q m r a b
  | .mod, m, r, a, b => mod q m r a b
  | .shiftL, m, r, a, b => some (shl q m r a b)
  | .shiftR, m, r, a, b => some (shr q m r a b)
  | .lesserEq, m, r, a, b => some (leq q m r a b)
  | .greaterEq, m, r, a, b => some (geq q m r a b)
  | .lesser, m, r, a, b => some (lt q m r a b)
  | .greater, m, r, a, b => some (gt q m r a b)
  | .eq, m, r, a, b => some (eq q m r a b)
  | .notEq, m, r, a, b => some (neq q m r a b)
  | .boolOr, m, r, a, b => some (lor q m r a b)
  | .boolAnd, m, r, a, b => some (land q m r a b)
  | .bitOr, m, r, a, b => some (bit2 q (· ||| ·) m r a b)
  | .bitAnd, m, r, a, b => some (bit2 q (· &&& ·) m r a b)
  | .bitXor, m, r, a, b => some (bit2 q (· ^^^ ·) m r a b)

/-- `compute_bucket.rs:288-296`. -/
def prefixOp (q : Nat) : Prefix → Mem → Nat → Nat → Mem
  | .sub, m, r, a => neg q m r a
  | .boolNot, m, r, a => lnot q m r a
  | .complement, m, r, a => bnot q m r a

end Verif.WFr
