import Verif.ModArith
import Verif.Ir

/-!
# Run-time arithmetic without assembly

Model of `/repo/code_producers/src/c_elements/generic/fr.cpp`, the template of the field arithmetic
that the C++ backend writes with `--no_asm` for every prime but goldilocks, and of the constants
that fill it in (`/repo/code_producers/src/c_elements/c_code_generator.rs:1086-1123`).

An element (`generic/fr.hpp`) is a 32-bit signed number, two type bits and `n64` limbs of 64 bits.
It is *short* or *long*, and its limbs may be in Montgomery form.

Simplifications.
* A list of limbs is a natural number; limb `i` is `limb i`.
* The GMP functions used on limbs (`mpn_add_n`, `mpn_addmul_1`, …) and on integers (`mpz_fdiv_q`,
  `mpz_powm`, …) are modelled by what their documentation says they compute.
* A function that writes through its first argument returns the new element; the old contents are
  the argument `r`, and so are the contents of uninitialised locals.  The destination is not one of
  the operands (the generated code computes into numbered temporaries of its own, see `Verif.Slots`).
-/

namespace Verif.Frg

/-- `2^64`, the base of the limbs. -/
def w : Nat := 2 ^ 64

/-- `p.bits()`, `qbits` of the template (`c_code_generator.rs:1090,1121`). -/
def qbits (q : Nat) : Nat := Nat.log2 q + 1

/-- `n64`, `Fr_N64` (`c_code_generator.rs:1094`): number of limbs. -/
def n64 (q : Nat) : Nat := (qbits q + 63) / 64

/-- `2^(64·n64)`, one more than the greatest number `n64` limbs hold. -/
def R (q : Nat) : Nat := 2 ^ (64 * n64 q)

/-- `half` (`c_code_generator.rs:1091`, `fr.cpp:9`). -/
def half (q : Nat) : Nat := q / 2

/-- `fr_np` (`c_code_generator.rs:1092-1093`, `fr.cpp:15`): `2^64` less the inverse of `p` modulo
`2^64`.  (`unwrap` panics for an even `p`; the model then gives `2^64`.) -/
def np (q : Nat) : Nat :=
  match ModArith.modInverse q w with
  | some i => w - i.toNat
  | none => w

/-- `lboMask` (`c_code_generator.rs:1095-1096`, `fr.cpp:16`). -/
def lboMask (q : Nat) : Nat := w / 2 ^ (64 * n64 q - qbits q) - 1

/-- `fr_r2` (`c_code_generator.rs:1098`). -/
def r2 (q : Nat) : Nat := 2 ^ (64 * n64 q * 2) % q

/-- `fr_r3` (`c_code_generator.rs:1099`). -/
def r3 (q : Nat) : Nat := 2 ^ (64 * n64 q * 3) % q

/-- `cannotOptimize` (`c_code_generator.rs:1116`). -/
def cannotOptimize (q : Nat) : Bool := q / 2 ^ ((n64 q - 1) * 64) > (w - 1) / 2 - 1

/-- Limb `i` of a number. -/
def limb (i x : Nat) : Nat := x / 2 ^ (64 * i) % w

/-- `mpn_sub_n` (result): difference of two numbers of `n64` limbs, wrapped. -/
def subN (q a b : Nat) : Nat := (a + R q - b) % R q

/-- The lines `if (mpn_cmp(x, q) >= 0) mpn_sub_n(x, x, q)` after most raw operations. -/
def condSub (q x : Nat) : Nat := if q ≤ x then subN q x q else x

/-- `Fr_rawAdd` (`fr.cpp:19-27`). -/
def rawAdd (q a b : Nat) : Nat :=
  let s := (a + b) % R q
  if (a + b) / R q ≠ 0 ∨ q ≤ s then subN q s q else s

/-- `Fr_rawAddLS` (`fr.cpp:29-37`). -/
def rawAddLS (q a b : Nat) : Nat :=
  let s := (a + b) % R q
  if (a + b) / R q ≠ 0 ∨ q ≤ s then subN q s q else s

/-- `Fr_rawSub` (`fr.cpp:39-47`). -/
def rawSub (q a b : Nat) : Nat :=
  let d := subN q a b
  if a < b then (d + q) % R q else d

/-- `Fr_rawSubRegular` (`fr.cpp:49-52`). -/
def rawSubRegular (q a b : Nat) : Nat := subN q a b

/-- `Fr_rawSubSL` (`fr.cpp:54-64`). -/
def rawSubSL (q a b : Nat) : Nat :=
  let d := subN q a b
  if a < b then (d + q) % R q else d

/-- `Fr_rawSubLS` (`fr.cpp:66-74`). -/
def rawSubLS (q a b : Nat) : Nat :=
  let d := subN q a b
  if a < b then (d + q) % R q else d

/-- `Fr_rawNeg` (`fr.cpp:76-86`). -/
def rawNeg (q a : Nat) : Nat := if a ≠ 0 then subN q q a else 0

/-- `Fr_rawNegLS` (`fr.cpp:89-98`). -/
def rawNegLS (q a b : Nat) : Nat :=
  let d1 := subN q q b
  let d2 := subN q d1 a
  if q < b ∨ d1 < a then (d2 + q) % R q else d2

/-- `np0 = Fr_np * product[0]`, the factor that clears the lowest limb (lines 125, 138, 147, 184, 192, 230, 238 of `fr.cpp`). -/
def np0 (q prod : Nat) : Nat := np q * limb 0 prod % w

/-- One round of `Fr_rawMMul` (lines 123-145 of `fr.cpp`), with `n64 + 1` limbs in each product: from
`product{i}` and limb `i + 1` of `a` to `product{i+1}` and the carry of `mpn_add`.  When the carry
cannot be dropped, the one of `mpn_add` is written to `product{i+2}[N-1]` but overwritten by the
next round's `product{i+2}[N-1] = mpn_addmul_1(…)`; only the last round's is used (`c`). -/
def mmulStep (q b prod ai : Nat) : Nat × Nat :=
  let s := prod + q * np0 q prod
  let prod' := s % (R q * w)
  let c := s / (R q * w)
  let lo := b * ai % R q
  let hi := b * ai / R q
  let top := if cannotOptimize q then (c + hi) % w else hi
  let t := lo + top * R q + prod' / w
  (t % (R q * w), t / (R q * w))

/-- `product{k}` of `Fr_rawMMul` and the carry of the round that made it (`fr.cpp:123-145`). -/
def mmulLoop (q a b : Nat) : Nat → Nat × Nat
  | 0 => (b * limb 0 a, 0)
  | k + 1 => mmulStep q b (mmulLoop q a b k).1 (limb (k + 1) a)

/-- The end of the Montgomery products (lines 147-163, 192-208, 238-254 of `fr.cpp`): a last reduction
step, and a subtraction of `q` if the carry is set or the number is not below `q`. -/
def mmulEnd (q prod c0 : Nat) : Nat :=
  let s := prod + q * np0 q prod
  let res := s % (R q * w) / w
  let c := if cannotOptimize q then c0 + s / (R q * w) else 0
  if c ≠ 0 ∨ q ≤ res then subN q res q else res

/-- `Fr_rawMMul` (`fr.cpp:110-164`): Montgomery product. -/
def rawMMul (q a b : Nat) : Nat :=
  let pc := mmulLoop q a b (n64 q - 1)
  mmulEnd q pc.1 pc.2

/-- One round of `Fr_rawMMul1` and of `Fr_rawFromMontgomery` (lines 184-190 and 230-236 of `fr.cpp`): the
carry goes to the highest limb, or to limb 1 in the optimised form. -/
def mmul1Step (q prod : Nat) : Nat :=
  let s := prod + q * np0 q prod
  let prod' := s % (R q * w)
  let c := s / (R q * w)
  let t := (if cannotOptimize q then c * R q else c * w) + prod' / w
  t % (R q * w)

/-- `product{k}` of these two functions, from `product0`. -/
def mmul1Loop (q prod : Nat) : Nat → Nat
  | 0 => prod
  | k + 1 => mmul1Step q (mmul1Loop q prod k)

/-- `Fr_rawMMul1` (`fr.cpp:171-209`): Montgomery product with one limb. -/
def rawMMul1 (q a b : Nat) : Nat := mmulEnd q (mmul1Loop q (a * b) (n64 q - 1)) 0

/-- `Fr_rawToMontgomery` (`fr.cpp:211-214`). -/
def rawToMontgomery (q a : Nat) : Nat := rawMMul q a (r2 q)

/-- `Fr_rawFromMontgomery` (`fr.cpp:216-255`). -/
def rawFromMontgomery (q a : Nat) : Nat := mmulEnd q (mmul1Loop q a (n64 q - 1)) 0

/-- `Fr_rawCopyS2L` (`fr.cpp:277-291`): a signed 64-bit number in limbs. -/
def rawCopyS2L (q : Nat) (val : Int) : Nat :=
  if val < 0 then ((R q - val.natAbs) + q) % R q else val.toNat

/-- `pRawResult[n64-1] &= lboMask` (`fr.cpp:297,309,321,343,370`). -/
def maskTop (q x : Nat) : Nat :=
  x % 2 ^ (64 * (n64 q - 1)) + (limb (n64 q - 1) x &&& lboMask q) * 2 ^ (64 * (n64 q - 1))

/-- `Fr_rawAnd` (`fr.cpp:293-303`). -/
def rawAnd (q a b : Nat) : Nat := condSub q (maskTop q (a &&& b))

/-- `Fr_rawOr` (`fr.cpp:305-315`). -/
def rawOr (q a b : Nat) : Nat := condSub q (maskTop q (a ||| b))

/-- `Fr_rawXor` (`fr.cpp:317-327`). -/
def rawXor (q a b : Nat) : Nat := condSub q (maskTop q (a ^^^ b))

/-- `Fr_rawShl` (`fr.cpp:329-349`): whole limbs first, then bits. -/
def rawShl0 (q a b : Nat) : Nat :=
  let bit := b % 64
  let word := b / 64
  let count := n64 q - word
  let x := a % 2 ^ (64 * count) * 2 ^ (64 * word)
  let x := if bit ≠ 0 then x * 2 ^ bit % R q else x
  condSub q (maskTop q x)

/-- `Fr_rawShr` (`fr.cpp:351-364`). -/
def rawShr0 (q a b : Nat) : Nat :=
  let bit := b % 64
  let word := b / 64
  let count := n64 q - word
  let x := a / 2 ^ (64 * word) % 2 ^ (64 * count)
  if bit ≠ 0 then x / 2 ^ bit else x

/-- `Fr_rawNot` (`fr.cpp:366-376`). -/
def rawNot (q a : Nat) : Nat := condSub q (maskTop q (R q - 1 - a))

/-- `FrElement` (`generic/fr.hpp:16-28`): `shortVal`, the bits `Fr_LONG` and `Fr_MONTGOMERY` of
`type`, `longVal`. -/
structure El where
  short : Int
  long : Bool
  mont : Bool
  raw : Nat
  deriving DecidableEq, Repr

/-- `Fr_toNormal` (`fr.cpp:384-395`). -/
def toNormal (q : Nat) (r a : El) : El :=
  if a.long && a.mont then { r with long := true, mont := false, raw := rawFromMontgomery q a.raw }
  else a

/-- A long plain result with `shortVal` cleared: the lines `r->type = Fr_LONG; r->shortVal = 0`
after `Fr_rawCopyS2L` (lines 424-426 of `fr.cpp` and others). -/
def longOf (q : Nat) (v : Int) : El := ⟨0, true, false, rawCopyS2L q v⟩

/-- `mul_s1s2` (`fr.cpp:416-439`): both branches end in the long form. -/
def mul_s1s2 (q : Nat) (a b : El) : El := longOf q (a.short * b.short)

/-- `mul_l1nl2n` (`fr.cpp:441-447`). -/
def mul_l1nl2n (q : Nat) (r a b : El) : El :=
  { r with long := true, mont := true, raw := rawMMul q (rawMMul q a.raw b.raw) (r3 q) }

/-- `mul_l1nl2m` (`fr.cpp:449-453`), `mul_l1ml2n` (`461-465`), `mul_l1ns2m` (`535-539`),
`mul_s1ml2n` (`553-557`). -/
def mulToPlain (q : Nat) (r a b : El) : El :=
  { r with long := true, mont := false, raw := rawMMul q a.raw b.raw }

/-- `mul_l1ml2m` (`fr.cpp:455-459`), `mul_l1ms2m` (`541-545`), `mul_s1ml2m` (`547-551`). -/
def mulToMont (q : Nat) (r a b : El) : El :=
  { r with long := true, mont := true, raw := rawMMul q a.raw b.raw }

/-- The product of a long number and a short one, common to the next four (lines 471-480,
489-498, 507-516, 523-532 of `fr.cpp`). -/
def mmulShort (q raw : Nat) (s : Int) : Nat :=
  if s < 0 then rawNeg q (rawMMul1 q raw (-s).toNat) else rawMMul1 q raw s.toNat

/-- `mul_l1ns2n` (`fr.cpp:467-483`). -/
def mul_l1ns2n (q : Nat) (r a b : El) : El :=
  { r with long := true, mont := true, raw := rawMMul q (mmulShort q a.raw b.short) (r3 q) }

/-- `mul_s1nl2n` (`fr.cpp:485-501`). -/
def mul_s1nl2n (q : Nat) (r a b : El) : El :=
  { r with long := true, mont := true, raw := rawMMul q (mmulShort q b.raw a.short) (r3 q) }

/-- `mul_l1ms2n` (`fr.cpp:503-517`). -/
def mul_l1ms2n (q : Nat) (r a b : El) : El :=
  { r with long := true, mont := false, raw := mmulShort q a.raw b.short }

/-- `mul_s1nl2m` (`fr.cpp:519-533`). -/
def mul_s1nl2m (q : Nat) (r a b : El) : El :=
  { r with long := true, mont := false, raw := mmulShort q b.raw a.short }

/-- `Fr_mul` (`fr.cpp:559-637`). -/
def mul (q : Nat) (r a b : El) : El :=
  if a.long then
    if b.long then
      if a.mont then
        if b.mont then mulToMont q r a b else mulToPlain q r a b
      else
        if b.mont then mulToPlain q r a b else mul_l1nl2n q r a b
    else if a.mont then
      if b.mont then mulToMont q r a b else mul_l1ms2n q r a b
    else
      if b.mont then mulToPlain q r a b else mul_l1ns2n q r a b
  else if b.long then
    if a.mont then
      if b.mont then mulToMont q r a b else mulToPlain q r a b
    else if b.mont then mul_s1nl2m q r a b
    else mul_s1nl2n q r a b
  else mul_s1s2 q a b

/-- `Fr_toLongNormal` (`fr.cpp:639-659`). -/
def toLongNormal (q : Nat) (r a : El) : El :=
  if a.long then
    if a.mont then { r with long := true, mont := false, raw := rawFromMontgomery q a.raw } else a
  else longOf q a.short

/-- `Fr_toMontgomery` (`fr.cpp:661-689`). -/
def toMontgomery (q : Nat) (r a : El) : El :=
  if a.mont then a
  else if a.long then ⟨a.short, true, true, rawMMul q a.raw (r2 q)⟩
  else if a.short < 0 then
    { r with long := false, mont := true, raw := rawNeg q (rawMMul1 q (r2 q) (-a.short).toNat) }
  else { r with long := false, mont := true, raw := rawMMul1 q (r2 q) a.short.toNat }

/-- `has_add32_overflow` (`fr.cpp:696-701`). -/
def hasAdd32Overflow (v : Int) : Bool :=
  let signs := (v / 2 ^ 31) % 4
  signs == 1 || signs == 2

/-- A short result if it fits, a long one otherwise (`fr.cpp:715-726`, `905-916`, `1382-1396`). -/
def shortOr (q : Nat) (r : El) (v : Int) : El :=
  if hasAdd32Overflow v then longOf q v else { r with short := v, long := false, mont := false }

/-- `sub_s1s2` (`fr.cpp:710-727`). -/
def sub_s1s2 (q : Nat) (r a b : El) : El := shortOr q r (a.short - b.short)

/-- `sub_l1nl2n` (`fr.cpp:729-734`). -/
def sub_l1nl2n (q : Nat) (r a b : El) : El :=
  { r with long := true, mont := false, raw := rawSub q a.raw b.raw }

/-- `sub_l1nl2m` (`fr.cpp:736-744`), `sub_s1nl2m` (`788-796`). -/
def sub_nm (q : Nat) (r a b : El) : El :=
  { r with long := true, mont := true, raw := rawSub q (toMontgomery q r a).raw b.raw }

/-- `sub_l1ml2m` (`fr.cpp:746-751`), `sub_l1ms2m` (`813-818`), `sub_s1ml2m` (`820-825`). -/
def sub_mm (q : Nat) (r a b : El) : El :=
  { r with long := true, mont := true, raw := rawSub q a.raw b.raw }

/-- `sub_l1ml2n` (`fr.cpp:753-761`), `sub_l1ms2n` (`778-786`). -/
def sub_mn (q : Nat) (r a b : El) : El :=
  { r with long := true, mont := true, raw := rawSub q a.raw (toMontgomery q r b).raw }

/-- `sub_s1l2n` (`fr.cpp:763-776`). -/
def sub_s1l2n (q : Nat) (r a b : El) : El :=
  { r with long := true, mont := false, raw :=
      if 0 ≤ a.short then rawSubSL q a.short.toNat b.raw else rawNegLS q b.raw (-a.short).toNat }

/-- `sub_l1ns2` (`fr.cpp:798-811`). -/
def sub_l1ns2 (q : Nat) (r a b : El) : El :=
  { r with long := true, mont := false, raw :=
      if b.short < 0 then rawAddLS q a.raw (-b.short).toNat else rawSubLS q a.raw b.short.toNat }

/-- `Fr_sub` (`fr.cpp:827-891`). -/
def sub (q : Nat) (r a b : El) : El :=
  if a.long then
    if b.long then
      if a.mont then
        if b.mont then sub_mm q r a b else sub_mn q r a b
      else if b.mont then sub_nm q r a b
      else sub_l1nl2n q r a b
    else if a.mont then
      if b.mont then sub_mm q r a b else sub_mn q r a b
    else sub_l1ns2 q r a b
  else if b.long then
    if b.mont then
      if a.mont then sub_mm q r a b else sub_nm q r a b
    else sub_s1l2n q r a b
  else sub_s1s2 q r a b

/-- `add_s1s2` (`fr.cpp:900-917`). -/
def add_s1s2 (q : Nat) (r a b : El) : El := shortOr q r (a.short + b.short)

/-- `add_l1nl2n` (`fr.cpp:919-924`). -/
def add_l1nl2n (q : Nat) (r a b : El) : El :=
  { r with long := true, mont := false, raw := rawAdd q a.raw b.raw }

/-- `add_l1nl2m` (`fr.cpp:926-934`), `add_s1nl2m` (`978-986`). -/
def add_nm (q : Nat) (r a b : El) : El :=
  { r with long := true, mont := true, raw := rawAdd q (toMontgomery q r a).raw b.raw }

/-- `add_l1ml2m` (`fr.cpp:936-940`), `add_l1ms2m` (`1003-1008`), `add_s1ml2m` (`1010-1015`). -/
def add_mm (q : Nat) (r a b : El) : El :=
  { r with long := true, mont := true, raw := rawAdd q a.raw b.raw }

/-- `add_l1ml2n` (`fr.cpp:942-950`), `add_l1ms2n` (`967-976`). -/
def add_mn (q : Nat) (r a b : El) : El :=
  { r with long := true, mont := true, raw := rawAdd q a.raw (toMontgomery q r b).raw }

/-- `add_s1l2n` (`fr.cpp:952-965`). -/
def add_s1l2n (q : Nat) (r a b : El) : El :=
  { r with long := true, mont := false, raw :=
      if 0 ≤ a.short then rawAddLS q b.raw a.short.toNat else rawSubLS q b.raw (-a.short).toNat }

/-- `add_l1ns2` (`fr.cpp:988-1001`). -/
def add_l1ns2 (q : Nat) (r a b : El) : El :=
  { r with long := true, mont := false, raw :=
      if 0 ≤ b.short then rawAddLS q a.raw b.short.toNat else rawSubLS q a.raw (-b.short).toNat }

/-- `Fr_add` (`fr.cpp:1017-1084`). -/
def add (q : Nat) (r a b : El) : El :=
  if a.long then
    if b.long then
      if a.mont then
        if b.mont then add_mm q r a b else add_mn q r a b
      else
        if b.mont then add_nm q r a b else add_l1nl2n q r a b
    else if a.mont then
      if b.mont then add_mm q r a b else add_mn q r a b
    else add_l1ns2 q r a b
  else if b.long then
    if b.mont then
      if a.mont then add_mm q r a b else add_nm q r a b
    else add_s1l2n q r a b
  else add_s1s2 q r a b

/-- `Fr_isTrue` (`fr.cpp:1086-1100`). -/
def isTrue (a : El) : Bool := if a.long then a.raw != 0 else a.short != 0

/-- `rltRawL1L2` (`fr.cpp:1177-1182`). -/
def rltRaw (a b : Nat) : Bool := a < b

/-- `rltL1L2`, `rltl1l2_n1`, `rltl1l2_p1` (lines 1184-1218 of `fr.cpp`). -/
def rltL1L2 (q a b : Nat) : Bool :=
  if half q < a then
    if half q < b then rltRaw a b else true
  else
    if half q < b then false else rltRaw a b

/-- `Fr_rlt` and the functions it dispatches to (`fr.cpp:1172-1175`, `1220-1348`). -/
def rlt (q : Nat) (r a b : El) : Bool :=
  if a.long then
    if b.long then
      if a.mont then
        if b.mont then rltL1L2 q (toNormal q r a).raw (toNormal q r b).raw
        else rltL1L2 q (toNormal q r a).raw b.raw
      else if b.mont then rltL1L2 q a.raw (toNormal q r b).raw
      else rltL1L2 q a.raw b.raw
    else if a.mont then rltL1L2 q (toNormal q r a).raw (toLongNormal q r b).raw
    else rltL1L2 q a.raw (toLongNormal q r b).raw
  else if b.long then
    if b.mont then rltL1L2 q (toLongNormal q r a).raw (toNormal q r b).raw
    else rltL1L2 q (toLongNormal q r a).raw b.raw
  else a.short < b.short

/-- A truth value as a short element: `r->shortVal = …; r->type = Fr_SHORT`. -/
def ofBool (r : El) (t : Bool) : El :=
  { r with short := if t then 1 else 0, long := false, mont := false }

/-- `Fr_lt` (`fr.cpp:1350-1354`). -/
def lt (q : Nat) (r a b : El) : El := ofBool r (rlt q r a b)

/-- `Fr_geq` (`fr.cpp:1356-1363`). -/
def geq (q : Nat) (r a b : El) : El := ofBool r (!rlt q r a b)

/-- `Fr_neg` (`fr.cpp:1372-1398`). -/
def neg (q : Nat) (r a : El) : El :=
  if a.long then { a with raw := rawNeg q a.raw } else shortOr q r (-a.short)

/-- `Fr_req` and the functions it dispatches to (`fr.cpp:1400-1523`). -/
def req (q : Nat) (r a b : El) : Bool :=
  if a.long then
    if b.long then
      if a.mont then
        if b.mont then b.raw == a.raw
        else (toMontgomery q r b).raw == a.raw
      else if b.mont then b.raw == (toMontgomery q r a).raw
      else b.raw == a.raw
    else if a.mont then (toMontgomery q r b).raw == a.raw
    else (toLongNormal q r b).raw == a.raw
  else if b.long then
    if b.mont then b.raw == (toMontgomery q r a).raw
    else b.raw == (toLongNormal q r a).raw
  else a.short == b.short

/-- `Fr_eq` (`fr.cpp:1525-1529`). -/
def eq (q : Nat) (r a b : El) : El := ofBool r (req q r a b)

/-- `Fr_neq` (`fr.cpp:1531-1537`). -/
def neq (q : Nat) (r a b : El) : El := ofBool r (!req q r a b)

/-- `Fr_lor` (`fr.cpp:1540-1566`). -/
def lor (r a b : El) : El := ofBool r (isTrue a || isTrue b)

/-- `Fr_lnot` (`fr.cpp:1568-1580`). -/
def lnot (r a : El) : El := ofBool r (if a.long then a.raw == 0 else a.short == 0)

/-- `rgtRawL1L2` (`fr.cpp:1588-1593`). -/
def rgtRaw (a b : Nat) : Bool := b < a

/-- `rgtL1L2`, `rgtl1l2_n1`, `rgtl1l2_p1` (lines 1595-1627 of `fr.cpp`). -/
def rgtL1L2 (q a b : Nat) : Bool :=
  if half q < a then
    if half q < b then rgtRaw a b else false
  else
    if half q < b then true else rgtRaw a b

/-- `Fr_rgt` and the functions it dispatches to (`fr.cpp:1583-1586`, `1629-1753`). -/
def rgt (q : Nat) (r a b : El) : Bool :=
  if a.long then
    if b.long then
      if a.mont then
        if b.mont then rgtL1L2 q (toNormal q r a).raw (toNormal q r b).raw
        else rgtL1L2 q (toNormal q r a).raw b.raw
      else if b.mont then rgtL1L2 q a.raw (toNormal q r b).raw
      else rgtL1L2 q a.raw b.raw
    else if a.mont then rgtL1L2 q (toNormal q r a).raw (toLongNormal q r b).raw
    else rgtL1L2 q a.raw (toLongNormal q r b).raw
  else if b.long then
    if b.mont then rgtL1L2 q (toLongNormal q r a).raw (toNormal q r b).raw
    else rgtL1L2 q (toLongNormal q r a).raw b.raw
  else b.short < a.short

/-- `Fr_gt` (`fr.cpp:1755-1759`). -/
def gt (q : Nat) (r a b : El) : El := ofBool r (rgt q r a b)

/-- `Fr_leq` (`fr.cpp:1761-1768`). -/
def leq (q : Nat) (r a b : El) : El := ofBool r (!rgt q r a b)

/-- `Fr_land` (`fr.cpp:1771-1797`). -/
def land (r a b : El) : El := ofBool r (isTrue a && isTrue b)

/-- The limbs of a short operand of a bitwise operation: `{0, 0, {(uint64_t)shortVal}}` if it is not
negative (`fr.cpp:1860-1867`, `1880-1887`, `1901-1908`, `1920-1927`). -/
def shortLimbs (q : Nat) (r a : El) : Nat :=
  if 0 ≤ a.short then a.short.toNat else (toLongNormal q r a).raw

/-- `and_s1s2` (`fr.cpp:1799-1818`), `or_s1s2` (`2351-2369`), `xor_s1s2` (`2541-2559`). -/
def bit_s1s2 (q : Nat) (raw sh : Nat → Nat → Nat) (r a b : El) : El :=
  if 0 ≤ a.short ∧ 0 ≤ b.short then
    { r with short := sh a.short.toNat b.short.toNat, long := false, mont := false }
  else
    ⟨r.short, true, false, raw (toLongNormal q r a).raw (toLongNormal q r b).raw⟩

/-- `Fr_band` (lines 1820-1988 of `fr.cpp`), `Fr_bor` (2371-2539), `Fr_bxor` (2561-2728) and the functions
they dispatch to: the three are the same text but for the raw function `raw` and the operator `sh`
on two non-negative short values. -/
def bit2 (q : Nat) (raw sh : Nat → Nat → Nat) (r a b : El) : El :=
  let lng := fun (x : Nat) => ({ r with long := true, mont := false, raw := x } : El)
  if a.long then
    if b.long then
      if a.mont then
        if b.mont then lng (raw (toNormal q r a).raw (toNormal q r b).raw)
        else lng (raw (toNormal q r a).raw b.raw)
      else if b.mont then lng (raw a.raw (toNormal q r b).raw)
      else lng (raw a.raw b.raw)
    else if a.mont then lng (raw (shortLimbs q r b) (toNormal q r a).raw)
    else lng (raw a.raw (shortLimbs q r b))
  else if b.long then
    if b.mont then lng (raw (shortLimbs q r a) (toNormal q r b).raw)
    else lng (raw (shortLimbs q r a) b.raw)
  else bit_s1s2 q raw sh r a b

/-- `Fr_band` (`fr.cpp:1938-1988`). -/
def band (q : Nat) : El → El → El → El := bit2 q (rawAnd q) (· &&& ·)

/-- `Fr_bor` (`fr.cpp:2489-2539`). -/
def bor (q : Nat) : El → El → El → El := bit2 q (rawOr q) (· ||| ·)

/-- `Fr_bxor` (`fr.cpp:2678-2728`). -/
def bxor (q : Nat) : El → El → El → El := bit2 q (rawXor q) (· ^^^ ·)

/-- `rawShl` (`fr.cpp:1995-2010`). -/
def rawShl (q a b : Nat) : Nat :=
  if b = 0 then a else if qbits q ≤ b then 0 else rawShl0 q a b

/-- `rawShr` (`fr.cpp:2012-2027`). -/
def rawShr (q a b : Nat) : Nat :=
  if b = 0 then a else if qbits q ≤ b then 0 else rawShr0 q a b

/-- `Fr_setzero` (`fr.cpp:2029-2033`). -/
def setzero (r : El) : El := { r with short := 0, long := false, mont := false }

/-- `do_shlcl` (`fr.cpp:2035-2042`). -/
def doShlcl (q : Nat) (r a : El) (b : Nat) : El :=
  { r with long := true, mont := false, raw := rawShl q (toLongNormal q r a).raw b }

/-- `do_shlln` (`fr.cpp:2044-2048`). -/
def doShlln (q : Nat) (r a : El) (b : Nat) : El :=
  { r with long := true, mont := false, raw := rawShl q a.raw b }

/-- `do_shl` (`fr.cpp:2050-2099`). -/
def doShl (q : Nat) (r a : El) (b : Nat) : El :=
  if a.long then
    if a.mont then doShlln q r (toNormal q r a) b else doShlln q r a b
  else if a.short = 0 then setzero r
  else if a.short < 0 then doShlcl q r a b
  else if 31 ≤ b then doShlcl q r a b
  else if a.short * 2 ^ b / 2 ^ 31 ≠ 0 then doShlcl q r a b
  else { r with short := a.short * 2 ^ b, long := false, mont := false }

/-- `do_shrln` (`fr.cpp:2101-2105`). -/
def doShrln (q : Nat) (r a : El) (b : Nat) : El :=
  { r with long := true, mont := false, raw := rawShr q a.raw b }

/-- `do_shrl` (`fr.cpp:2107-2120`). -/
def doShrl (q : Nat) (r a : El) (b : Nat) : El :=
  if a.long && a.mont then doShrln q r (toNormal q r a) b else doShrln q r a b

/-- `do_shr` (`fr.cpp:2122-2155`). -/
def doShr (q : Nat) (r a : El) (b : Nat) : El :=
  if a.long then doShrl q r a b
  else if a.short = 0 then setzero r
  else if a.short < 0 then doShrl q r (toLongNormal q r a) b
  else if 31 ≤ b then setzero r
  else { r with short := a.short / 2 ^ b, long := false, mont := false }

/-- `Fr_shr_big_shift` (`fr.cpp:2157-2173`). -/
def shrBig (q : Nat) (r a b : El) : El :=
  let shift := rawSubRegular q q b.raw
  if qbits q ≤ shift then setzero r else doShl q r a (limb 0 shift)

/-- `Fr_shr_long` (`fr.cpp:2175-2187`). -/
def shrLong (q : Nat) (r a b : El) : El :=
  if qbits q ≤ b.raw then shrBig q r a b else doShr q r a (limb 0 b.raw)

/-- `Fr_shr` (`fr.cpp:2189-2231`). -/
def shr (q : Nat) (r a b : El) : El :=
  if b.long then
    if b.mont then shrLong q r a (toNormal q r b) else shrLong q r a b
  else if b.short < 0 then
    if (qbits q : Int) ≤ -b.short then setzero r else doShl q r a (-b.short).toNat
  else if (qbits q : Int) ≤ b.short then setzero r
  else doShr q r a b.short.toNat

/-- `Fr_shl_big_shift` (`fr.cpp:2233-2249`). -/
def shlBig (q : Nat) (r a b : El) : El :=
  let shift := rawSubRegular q q b.raw
  if qbits q ≤ shift then setzero r else doShr q r a (limb 0 shift)

/-- `Fr_shl_long` (`fr.cpp:2251-2263`). -/
def shlLong (q : Nat) (r a b : El) : El :=
  if qbits q ≤ b.raw then shlBig q r a b else doShl q r a (limb 0 b.raw)

/-- `Fr_shl` (`fr.cpp:2265-2307`). -/
def shl (q : Nat) (r a b : El) : El :=
  if b.long then
    if b.mont then shlLong q r a (toNormal q r b) else shlLong q r a b
  else if b.short < 0 then
    if (qbits q : Int) ≤ -b.short then setzero r else doShr q r a (-b.short).toNat
  else if (qbits q : Int) ≤ b.short then setzero r
  else doShl q r a b.short.toNat

/-- `Fr_square` (`fr.cpp:2309-2349`). -/
def square (q : Nat) (r a : El) : El :=
  if a.long then
    if a.mont then { r with long := true, mont := true, raw := rawMMul q a.raw a.raw }
    else { r with long := true, mont := true, raw := rawMMul q (rawMMul q a.raw a.raw) (r3 q) }
  else longOf q (a.short * a.short)

/-- `Fr_bnot` (`fr.cpp:2730-2755`). -/
def bnot (q : Nat) (r a : El) : El :=
  let lng := fun (x : Nat) => ({ r with long := true, mont := false, raw := x } : El)
  if a.long && !a.mont then lng (rawNot q a.raw) else lng (rawNot q (toLongNormal q r a).raw)

/-- `Fr_toMpz` (`fr.cpp:2766-2777`). -/
def toMpz (q : Nat) (r a : El) : Int :=
  let tmp := toNormal q r a
  if tmp.long then tmp.raw else if tmp.short < 0 then tmp.short + q else tmp.short

/-- `Fr_fromMpz` (`fr.cpp:2779-2788`), for a number that is not negative. -/
def fromMpz (r : El) (v : Int) : El :=
  if -2 ^ 31 ≤ v ∧ v < 2 ^ 31 then { r with short := v, long := false, mont := false }
  else { r with long := true, mont := false, raw := v.toNat }

/-- `Fr_str2element` (`fr.cpp:2805-2811`) on the number the text denotes. -/
def ofNum (q : Nat) (r : El) (v : Int) : El := fromMpz r (v % q)

/-- `Fr_element2str` (`fr.cpp:2813-2833`): the number whose decimal digits are written. -/
def num (q : Nat) (r a : El) : Int :=
  if !a.long then if 0 ≤ a.short then a.short else a.short + q
  else (toNormal q r a).raw

/-- `Fr_idiv` (`fr.cpp:2835-2857`); `mpz_fdiv_q` by zero aborts. -/
def idiv (q : Nat) (r a b : El) : Option El :=
  if toMpz q r b = 0 then none else some (fromMpz r (toMpz q r a / toMpz q r b))

/-- `Fr_mod` (`fr.cpp:2859-2875`). -/
def mod (q : Nat) (r a b : El) : Option El :=
  if toMpz q r b = 0 then none else some (fromMpz r (toMpz q r a % toMpz q r b))

/-- `Fr_pow` (`fr.cpp:2877-2893`). -/
def pow (q : Nat) (r a b : El) : El := fromMpz r (toMpz q r a ^ (toMpz q r b).toNat % q)

/-- `Fr_inv` (`fr.cpp:2895-2906`); without an inverse the result of `mpz_invert` is undefined. -/
def inv (q : Nat) (r a : El) : Option El :=
  match ModArith.modInverse (toMpz q r a) q with
  | some i => some (fromMpz r i)
  | none => none

/-- `Fr_div` (`fr.cpp:2908-2912`). -/
def div (q : Nat) (r a b : El) : Option El := (inv q r b).map fun t => mul q r a t

open Verif.Ir (Infix Prefix)

/-- The function the generated C++ calls for an infix operator
(`get_fr_op`, `/repo/compiler/src/intermediate_representation/compute_bucket.rs:315-341`). -/
def infixOp (q : Nat) : Infix → El → El → El → Option El
  | .mul, r, a, b => some (mul q r a b)
  | .div, r, a, b => div q r a b
  | .add, r, a, b => some (add q r a b)
  | .sub, r, a, b => some (sub q r a b)
  | .pow, r, a, b => some (pow q r a b)
  | .intDiv, r, a, b => idiv q r a b
  | .mod, r, a, b => mod q r a b
  | .shiftL, r, a, b => some (shl q r a b)
  | .shiftR, r, a, b => some (shr q r a b)
  | .lesserEq, r, a, b => some (leq q r a b)
  | .greaterEq, r, a, b => some (geq q r a b)
  | .lesser, r, a, b => some (lt q r a b)
  | .greater, r, a, b => some (gt q r a b)
  | .eq, r, a, b => some (eq q r a b)
  | .notEq, r, a, b => some (neq q r a b)
  | .boolOr, r, a, b => some (lor r a b)
  | .boolAnd, r, a, b => some (land r a b)
  | .bitOr, r, a, b => some (bor q r a b)
  | .bitAnd, r, a, b => some (band q r a b)
  | .bitXor, r, a, b => some (bxor q r a b)

/-- The same for prefix operators. -/
def prefixOp (q : Nat) : Prefix → El → El → El
  | .sub, r, a => neg q r a
  | .boolNot, r, a => lnot r a
  | .complement, r, a => bnot q r a

end Verif.Frg
