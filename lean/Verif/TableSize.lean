import Mathlib.Analysis.SpecialFunctions.Log.Base
import Mathlib.Analysis.Convex.SpecificFunctions.Basic
import Verif.HashMap

/-!
Model of the size of the table of inputs: `code_producers/src/c_elements/mod.rs:167-169` and
`code_producers/src/wasm_elements/mod.rs:211-214` (`get_input_hash_map_entry_size`, the same text), and of the table as the converter of
inputs for goldilocks reads it (`code_producers/src/c_elements/common64/json2bin64.cpp:97-143`).

The size is computed with floating-point numbers of 32 bits.  Rust leaves the precision of `f32::log2` open; here it is any function that
rounds correctly where it matters (`Log2`).
-/

namespace Verif.TableSize

open Verif.HashMap

/-- `usize as f32` (c_elements/mod.rs:168): the nearest number with 24 significant bits, ties to even. -/
def toF32 (n : Nat) : Nat :=
  if n ≤ 2 ^ 24 then n
  else
    let e := Nat.log2 n - 23
    let q := n / 2 ^ e
    let r := n % 2 ^ e
    (if 2 ^ e < 2 * r ∨ (2 * r = 2 ^ e ∧ q % 2 = 1) then q + 1 else q) * 2 ^ e

/-- `f32::log2` with correct rounding, for arguments from 1 to below `2 ^ 32`: the result is at most half the distance of neighbouring
numbers away (`2 ^ -20` for results below 32), results from 16 on are multiples of `2 ^ -19`, and rounding does not pass a whole number. -/
structure Log2 (L : ℝ → ℝ) : Prop where
  near : ∀ x, 1 ≤ x → x < 2 ^ 32 → |L x - Real.logb 2 x| ≤ 1 / 2 ^ 20
  grid : ∀ x, 2 ^ 16 ≤ x → x < 2 ^ 32 → ∃ m : ℤ, L x = m / 2 ^ 19
  whole : ∀ (x : ℝ) (k : Nat), 1 ≤ x → x ≤ 2 ^ k → k < 32 → L x ≤ k

/-- c_elements/mod.rs:167-169, wasm_elements/mod.rs:211-214 `get_input_hash_map_entry_size`.  Without inputs the logarithm is minus infinity,
which `as u32` turns into 0; so it does with negative numbers. -/
noncomputable def size (L : ℝ → ℝ) (n : Nat) : Nat :=
  max (2 ^ (if n = 0 then 0 else ⌈L (toF32 n : ℝ)⌉.toNat)) 256

/-- json2bin64.cpp:97-123 `loadMap` and 125-143 `getInputSignalHashPosition`: the converter takes the first 256 places of the table for the
whole table. -/
def findJ (t : List Slot) (h : Nat) : Except FindErr Nat := findC (t.take 256) h

end Verif.TableSize
