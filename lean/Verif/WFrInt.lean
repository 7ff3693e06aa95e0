import Verif.Frg

/-!
# Run-time arithmetic in WebAssembly: numbers in limbs

Model of the functions `Fr_int_*` and `Fr_F1m_*` of `/repo/code_producers/src/wasm_elements/bn128/fr-code.wat` (the lines cited), and of
the same functions for the other primes: the files differ in the number of limbs, in the constants of `fr-data.wat` and in the addresses
of the scratch memory.  Each function is straight-line code or a loop on 32-bit limbs in 64-bit registers; the model has loops in
place of the straight-line code, with the same operations in the same order.

Simplifications.
* A number in memory is a natural number; its limb `i` of 32 bits is `l32 i`, its word `i` of 64 bits `Frg.limb i`.
* Scratch memory that a function writes before it reads is not modelled.
* A function that writes through an address returns the number written.  In these functions the result may overwrite an operand: each limb
  is read before the limb of the result in its place is written.
-/

namespace Verif.WFr

open Verif.Frg (w qbits n64 R limb)

/-- `2^32`, the base of the limbs. -/
def B : Nat := 2 ^ 32

/-- The number of 32-bit limbs, `size_32_bit` (`/repo/code_producers/src/wasm_elements/mod.rs:10,81`). -/
def N (q : Nat) : Nat := 2 * n64 q

/-- Limb `i` of 32 bits: `i64.load32_u offset=4·i`. -/
def l32 (i x : Nat) : Nat := x / 2 ^ (32 * i) % B

/-- `$np32` (`fr-code.wat:3275,4395,6438`): `2^32` less the inverse of `q` modulo `2^32`.  The files have the number; for the eight
primes it is this one (`Props.WFr`). -/
def np32 (q : Nat) : Nat :=
  match ModArith.modInverse q B with
  | some i => B - i.toNat
  | none => B

/-- The data at 672 (`fr-data.wat:5`), `2^(64·2n) mod q`. -/
def r2 (q : Nat) : Nat := R q * R q % q

/-- The data at 704 (`fr-data.wat:6`), `2^(64·3n) mod q`. -/
def r3 (q : Nat) : Nat := R q * R q * R q % q

/-- The data at 736 (`fr-data.wat:7`): one in Montgomery form. -/
def one (q : Nat) : Nat := R q % q

/-! ## Integers -/

/-- `Fr_int_isZero` (`fr-code.wat:36-69`), from word `k` down. -/
def isZeroFrom (x : Nat) : Nat → Bool
  | 0 => limb 0 x == 0
  | k + 1 => if limb (k + 1) x == 0 then isZeroFrom x k else false

/-- `Fr_int_isZero`. -/
def intIsZero (q x : Nat) : Bool := isZeroFrom x (n64 q - 1)

/-- `Fr_int_eq` (`fr-code.wat:85-127`), from word `k` down. -/
def eqFrom (x y : Nat) : Nat → Bool
  | 0 => limb 0 x == limb 0 y
  | k + 1 => if limb (k + 1) x == limb (k + 1) y then eqFrom x y k else false

/-- `Fr_int_eq`. -/
def intEq (q x y : Nat) : Bool := eqFrom x y (n64 q - 1)

/-- `Fr_int_gt` (`fr-code.wat:128-200`), from word `k` down. -/
def gtFrom (x y : Nat) : Nat → Bool
  | 0 => limb 0 y < limb 0 x
  | k + 1 =>
    if limb (k + 1) x < limb (k + 1) y then false
    else if limb (k + 1) y < limb (k + 1) x then true
    else gtFrom x y k

/-- `Fr_int_gt`. -/
def intGt (q x y : Nat) : Bool := gtFrom x y (n64 q - 1)

/-- `Fr_int_gte` (`fr-code.wat:201-273`), from word `k` down. -/
def gteFrom (x y : Nat) : Nat → Bool
  | 0 => limb 0 y ≤ limb 0 x
  | k + 1 =>
    if limb (k + 1) x < limb (k + 1) y then false
    else if limb (k + 1) y < limb (k + 1) x then true
    else gteFrom x y k

/-- `Fr_int_gte`. -/
def intGte (q x y : Nat) : Bool := gteFrom x y (n64 q - 1)

/-- `Fr_int_add` (`fr-code.wat:274-384`) on the `k` lowest limbs: the limbs written, and `$c`. -/
def addLoop (x y : Nat) : Nat → Nat × Nat
  | 0 => (0, 0)
  | k + 1 =>
    let p := addLoop x y k
    let c := (l32 k x + l32 k y + p.2 / B) % w
    (p.1 + c % B * 2 ^ (32 * k), c)

/-- `Fr_int_add`: the sum and the carry. -/
def intAdd (q x y : Nat) : Nat × Nat :=
  let p := addLoop x y (N q)
  (p.1, p.2 / B)

/-- `Fr_int_sub` (`fr-code.wat:385-511`) on the `k` lowest limbs; `$c` is signed, and shifted keeping the sign. -/
def subLoop (x y : Nat) : Nat → Nat × Int
  | 0 => (0, 0)
  | k + 1 =>
    let p := subLoop x y k
    let c := (l32 k x : Int) - l32 k y + p.2 / (B : Int)
    (p.1 + (c % (B : Int)).toNat * 2 ^ (32 * k), c)

/-- `Fr_int_sub`: the difference and the borrow (`-1` or `0`). -/
def intSub (q x y : Nat) : Nat × Int :=
  let p := subLoop x y (N q)
  (p.1, p.2 / (B : Int))

/-- One product added to a column in two registers (lines 559-574 of `fr-code.wat` and all the others of this form): the low register keeps 32 bits and
the product, the high one counts what is above. -/
def mac (s : Nat × Nat) (t : Nat) : Nat × Nat :=
  let c := (s.1 % B + t) % w
  (c, (s.2 + c / B) % w)

/-- Products added in order. -/
def macs (s : Nat × Nat) (ts : List Nat) : Nat × Nat := ts.foldl mac s

/-- The products of limbs in column `k`, for `k` below the number of limbs: `x0·y_k, …, x_k·y0`. -/
def colLo (x y k : Nat) : List Nat := (List.range (k + 1)).map fun i => l32 i x * l32 (k - i) y

/-- The same for the columns above: `x_{k-N+1}·y_{N-1}, …, x_{N-1}·y_{k-N+1}`. -/
def colHi (n x y k : Nat) : List Nat :=
  (List.range (2 * n - 1 - k)).map fun j => l32 (k - n + 1 + j) x * l32 (n - 1 - j) y

/-- The part of column `k` of a product that comes from the operands. -/
def mulCol (n x y k : Nat) (s : Nat × Nat) : Nat × Nat :=
  macs s (if k < n then colLo x y k else colHi n x y k)

/-- `Fr_int_mul` (`fr-code.wat:512-1570`) up to column `k`: the two registers and the limbs written.  After a column the low register is written
and the two are moved down. -/
def mulLoop (n x y : Nat) : Nat → (Nat × Nat) × Nat
  | 0 => ((0, 0), 0)
  | k + 1 =>
    let st := mulLoop n x y k
    let s := mulCol n x y k st.1
    ((s.2, s.2 / B), st.2 + s.1 % B * 2 ^ (32 * k))

/-- `Fr_int_mul`: a product of `2N` limbs. -/
def intMul (q x y : Nat) : Nat :=
  let st := mulLoop (N q) x y (2 * N q - 1)
  st.2 + st.1.1 % B * 2 ^ (32 * (2 * N q - 1))

/-- Byte `i`: `i32.load8_u`. -/
def byte (i x : Nat) : Nat := x / 2 ^ (8 * i) % 256

/-- The loops that go down to the highest byte that is not zero, but not below `stop` (`fr-code.wat:2931-2948`, `2969-2986`). -/
def topByte (x stop : Nat) : Nat → Nat
  | 0 => 0
  | e + 1 => if byte (e + 1) x ≠ 0 ∨ e + 1 = stop then e + 1 else topByte x stop e

/-- The loop on `$sx` and `$ec` (`fr-code.wat:3004-3025`).  The first argument bounds the number of rounds; it is never reached from
`divLoop`. -/
def adjust : Nat → Nat → Int → Nat × Int
  | 0, sx, ec => (sx, ec)
  | f + 1, sx, ec => if sx < B ∧ 0 ≤ ec then (sx, ec) else adjust f (sx / 256) (ec + 1)

/-- One step: `sx·256^ec` is added to the quotient and its product with `y` is taken from the rest (`fr-code.wat:3039-3054`), with
`Fr_int__mul1` (2747-2844) and `Fr_int__add1` (2845-2888).  The product is read `ec` bytes lower than it was written, below it there are 32 zero
bytes (`Fr_int_zero(256)`). -/
def divStep (q y sx ec rr cc : Nat) : Nat × Nat :=
  ((cc + sx * 2 ^ (8 * ec)) % R q, (intSub q rr (y * sx % R q * 2 ^ (8 * ec) % R q)).1)

/-- The main loop of `Fr_int_div` (`fr-code.wat:2967-3057`), at most `f` rounds. -/
def divLoop (q y eY sy : Nat) : Nat → Nat → Nat → Nat → Option (Nat × Nat)
  | 0, _, _, _ => none
  | f + 1, eX0, rr, cc =>
    let eX := topByte rr 7 eX0
    let sx := rr / 2 ^ (8 * (eX - 7)) % w / sy
    let p := adjust (8 * n64 q + 8) sx ((eX : Int) - eY - 4)
    if p.1 = 0 then
      if intGte q rr y then
        let s := divStep q y 1 0 rr cc
        divLoop q y eY sy f eX s.2 s.1
      else some (cc, rr)
    else
      let s := divStep q y p.1 p.2.toNat rr cc
      divLoop q y eY sy f eX s.2 s.1

/-- `Fr_int_div` (`fr-code.wat:2889-3058`): quotient and rest; it traps if the divisor is zero. -/
def intDiv (q x y : Nat) : Option (Nat × Nat) :=
  let eY := topByte y 3 (8 * n64 q - 1)
  let sy := y / 2 ^ (8 * (eY - 3)) % B + 1
  if sy = 1 then none else divLoop q y eY sy (x + 1) (8 * n64 q - 1) x 0

/-- The new factor in a round of `Fr_int_inverseMod` and its sign (`fr-code.wat:3116-3181`). -/
def invSign (q p t : Nat) (st sn : Bool) : Nat × Bool :=
  if st then
    if sn then
      if intGte q p t then ((intSub q p t).1, false) else ((intSub q t p).1, true)
    else ((intAdd q p t).1, true)
  else
    if sn then ((intAdd q p t).1, false)
    else if intGte q t p then ((intSub q t p).1, false) else ((intSub q p t).1, true)

/-- The loop of `Fr_int_inverseMod` (`fr-code.wat:3102-3204`), at most `f` rounds; the product has `2N` limbs, of which the lower half is used. -/
def invLoop (q : Nat) : Nat → Nat → Bool → Nat → Bool → Nat → Nat → Option (Nat × Bool)
  | 0, _, _, _, _, _, _ => none
  | f + 1, t, st, nt, sn, r, nr =>
    if intIsZero q nr then some (t, st)
    else
      match intDiv q r nr with
      | none => none
      | some (qq, qr) =>
        let x := invSign q (intMul q qq nt % R q) t st sn
        invLoop q f nt sn x.1 x.2 nr qr

/-- `Fr_int_inverseMod` (`fr-code.wat:3059-3217`) of `x` modulo `q`. -/
def inverseMod (q x : Nat) : Option Nat :=
  match invLoop q (x + 1) 0 false 1 false q x with
  | none => none
  | some (t, st) => some (if st then (intSub q q t).1 else t)

/-! ## Numbers modulo `q` -/

/-- `Fr_F1m_add` (`fr-code.wat:3218-3244`). -/
def f1mAdd (q x y : Nat) : Nat :=
  let s := intAdd q x y
  if s.2 ≠ 0 then (intSub q s.1 q).1
  else if intGte q s.1 q then (intSub q s.1 q).1 else s.1

/-- `Fr_F1m_sub` (`fr-code.wat:3245-3260`). -/
def f1mSub (q x y : Nat) : Nat :=
  let d := intSub q x y
  if d.2 ≠ 0 then (intAdd q d.1 q).1 else d.1

/-- `Fr_F1m_neg` (`fr-code.wat:3261-3268`): from the zero at 768. -/
def f1mNeg (q x : Nat) : Nat := f1mSub q 0 x

/-- Limb `k` of `t` replaced: `i64.store32`. -/
def setLimb (t k v : Nat) : Nat := t - l32 k t * 2 ^ (32 * k) + v % B * 2 ^ (32 * k)

/-- One row of `Fr_F1m_mReduct` (lines 3277-3410 of `fr-code.wat` for the first): `m·q` added to `t` from limb `i` on, `j` limbs of it; `t` and `$c`. -/
def rowLoop (q m i t : Nat) : Nat → Nat × Nat
  | 0 => (t, 0)
  | j + 1 =>
    let p := rowLoop q m i t j
    let c := (l32 (i + j) p.1 + p.2 / B + l32 j q * m) % w
    (setLimb p.1 (i + j) c, c)

/-- The rows of `Fr_F1m_mReduct`: `t`, and the carries at 992. -/
def rows (q t : Nat) : Nat → Nat × Nat
  | 0 => (t, 0)
  | i + 1 =>
    let p := rows q t i
    let m := l32 i p.1 * np32 q % B
    let r := rowLoop q m i p.1 (N q)
    (r.1, p.2 + r.2 / B % B * 2 ^ (32 * i))

/-- `Fr_F1m_mReduct` (`fr-code.wat:3269-4355`). -/
def mReduct (q t : Nat) : Nat :=
  let p := rows q t (N q)
  f1mAdd q p.2 (p.1 / R q)

/-- The columns below `N` in `Fr_F1m_mul` and `Fr_F1m_square`: operand products (`xc`), then `q1·m_{k-1}, …, q_k·m0`, then the digit `m_k` that
clears the column and `q0·m_k`; the registers, and the number of the digits `m`. -/
def lowCols (q : Nat) (xc : Nat → Nat × Nat → Nat × Nat) : Nat → (Nat × Nat) × Nat
  | 0 => ((0, 0), 0)
  | k + 1 =>
    let st := lowCols q xc k
    let s := macs (xc k st.1) ((List.range k).map fun i => l32 (i + 1) q * l32 (k - 1 - i) st.2)
    let m := s.1 % B * np32 q % B
    let s := mac s (l32 0 q * m)
    ((s.2, s.2 / B), st.2 + m * 2 ^ (32 * k))

/-- The columns from `N` on: operand products, `q_{k-N+1}·m_{N-1}, …, q_{N-1}·m_{k-N+1}`, and the low register is written. -/
def highCols (q : Nat) (xc : Nat → Nat × Nat → Nat × Nat) (m : Nat) (s0 : Nat × Nat) : Nat → (Nat × Nat) × Nat
  | 0 => (s0, 0)
  | j + 1 =>
    let st := highCols q xc m s0 j
    let s := macs (xc (N q + j) st.1) (colHi (N q) q m (N q + j))
    ((s.2, s.2 / B), st.2 + s.1 % B * 2 ^ (32 * j))

/-- The end (`fr-code.wat:6378-6404`, `8535-8563`): the last limb, and `q` subtracted if there is a carry or the number is not below `q`. -/
def f1mCols (q : Nat) (xc : Nat → Nat × Nat → Nat × Nat) : Nat :=
  let lo := lowCols q xc (N q)
  let hi := highCols q xc lo.2 lo.1 (N q - 1)
  let r := hi.2 + hi.1.1 % B * 2 ^ (32 * (N q - 1))
  if hi.1.2 % B ≠ 0 then (intSub q r q).1
  else if intGte q r q then (intSub q r q).1 else r

/-- `Fr_F1m_mul` (`fr-code.wat:4356-6405`): Montgomery product. -/
def f1mMul (q x y : Nat) : Nat := f1mCols q (mulCol (N q) x y)

/-- The products `x_i·x_{k-i}` with `i < k - i`. -/
def sqPairs (n x k : Nat) : List Nat :=
  let lo := if k < n then 0 else k - n + 1
  (List.range ((k + 1) / 2 - lo)).map fun j => l32 (lo + j) x * l32 (k - lo - j) x

/-- The part of a column of `Fr_F1m_square` that comes from the operand: the products of two different limbs are added up, doubled, the square
of the middle limb and the registers of the previous column are added.  (For column 0 the code leaves out the addition of these, which are zero.) -/
def sqCol (n x k : Nat) (old : Nat × Nat) : Nat × Nat :=
  let s := macs (0, 0) (sqPairs n x k)
  let c := s.1 % B * 2 % w
  let d := (s.2 * 2 % w + c / B) % w
  let s := if k % 2 = 0 then mac (c, d) (l32 (k / 2) x * l32 (k / 2) x) else (c, d)
  let c := (s.1 % B + old.1 % B) % w
  (c, (s.2 + c / B + old.2) % w)

/-- `Fr_F1m_square` (`fr-code.wat:6406-8564`). -/
def f1mSquare (q x : Nat) : Nat := f1mCols q (sqCol (N q) x)

/-- `Fr_F1m_toMontgomery` (`fr-code.wat:8573-8580`). -/
def f1mToMont (q x : Nat) : Nat := f1mMul q x (r2 q)

/-- `Fr_F1m_fromMontgomery` (`fr-code.wat:8581-8592`). -/
def f1mFromMont (q x : Nat) : Nat := mReduct q x

/-- One bit of a byte of the exponent in `Fr_F1m_exp` (lines 8772-8787 of `fr-code.wat` for the first): square, and if the byte is at least `wt`
take `wt` from it and multiply by the base. -/
def expBit (q base : Nat) (s : Nat × Nat) (wt : Nat) : Nat × Nat :=
  let r := f1mSquare q s.1
  if wt ≤ s.2 then (f1mMul q base r, s.2 - wt) else (r, s.2)

/-- The bytes of the exponent below `i`, from the highest (`fr-code.wat:8759-8905`). -/
def expLoop (q base e : Nat) : Nat → Nat → Nat
  | 0, r => r
  | i + 1, r => expLoop q base e i ([128, 64, 32, 16, 8, 4, 2, 1].foldl (expBit q base) (r, byte i e)).1

/-- `Fr_F1m_exp` (`fr-code.wat:8747-8906`) with an exponent of `8·n64` bytes. -/
def f1mExp (q base e : Nat) : Nat := expLoop q base e (8 * n64 q) (one q)

end Verif.WFr
