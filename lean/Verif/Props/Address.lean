import Verif.IndexLemmas

/-!
# C64, C65: index expressions and addresses in the witness programs

An index expression is a field expression; the generated programs compute with machine integers.  C64 relates the two,
C65 says that the address built from the indices is the row-major one.
-/

namespace Verif.Props.Address

set_option linter.unusedVariables false

open Verif.Address Verif.ModArith

/-- The scalar field of BN254, as an example of a prime used by the compiler. -/
def bn128 : Int := 21888242871839275222246405745257275088548364400416034343698204186575808495617

/-- C64, totality: whatever the index expressions, the conversion never reaches `unreachable!()` and yields one address per
index. -/
theorem C64_total (is : List IR) : ∃ is', filterIdx is = .ok is' ∧ is'.length = is.length := filterIdx_ok is

example : (match filterIdx [.comp .add [.load 0, .big 3], .comp (.other 7) [.load 1, .big 2], .big (2 ^ 70)] with
    | .ok is' => decide (is'.length = 3) | _ => false) = true := by decide +kernel

/-- C64, wasm: if the exact integer value `z` of the converted index (each loaded element read as the integer of least absolute
value) lies in `[-p/2, p/2]`, the 32-bit word the program computes is the one `Fr_toInt` gives on the field value of the
index expression; in particular this holds for every expression whose exact value is an acceptable index, however large
the intermediate results. -/
theorem C64_wasm_partial (p : Int) (ρ : Env) (e e' : IR) (v z w : Int) (hp : 0 < p) (hodd : p % 2 = 1) (hρ : EnvOk p ρ)
    (h : filterOne e = .ok e') (hv : fval p ρ e = some v) (hz : zaddr p ρ e' = some z) (h1 : -(p / 2) ≤ z)
    (h2 : z ≤ p / 2) (hw : waddr p ρ e' = some w) : w = toIntW p v := by
  obtain ⟨z', hz', hc⟩ := filterOne_z h hv
  rw [hz] at hz'
  injection hz' with hz'
  subst hz'
  obtain ⟨z', hz', hw'⟩ := waddr_z p ρ e' w hw
  rw [hz] at hz'
  injection hz' with hz'
  subst hz'
  obtain ⟨hr1, hr2⟩ := fval_range hp hρ hv
  rw [hw', toIntW, centred_of_modEq hp hodd hr1 hr2 hc h1 h2]

/-- `i - 1 + 3 * j` with `i = 0` and `j = 5`: the expression is not convertible as written with `p - 1` (too large a constant)
and with a negative `i` (`p - 1`) it is. -/
example : EnvOk bn128 ⟨fun k => if k = 0 then bn128 - 1 else 5, fun _ _ => 0⟩ ∧
    (match filterOne (.comp .add [.load 0, .comp .mul [.big 3, .load 1]]) with
      | .ok e' => decide (zaddr bn128 ⟨fun k => if k = 0 then bn128 - 1 else 5, fun _ _ => 0⟩ e' = some 14 ∧
          waddr bn128 ⟨fun k => if k = 0 then bn128 - 1 else 5, fun _ _ => 0⟩ e' = some 14)
      | _ => false) = true := by
  refine ⟨⟨fun k => ?_, fun _ _ => by show (0 : Int) ≤ 0 ∧ (0 : Int) < bn128; decide⟩, by decide +kernel⟩
  dsimp only
  split <;> decide

/-- C64, C++: when all loaded elements of a converted index are integers of 32 bits and the result is, the integer computed by
the program without leaving the range of `int` is the one `Fr_toInt` gives on the field value of the expression. -/
theorem C64_cpp_partial (p : Int) (ρ : Env) (e e' : IR) (v c : Int) (hp : PrimeShape p) (hρ : EnvOk p ρ)
    (h : filterOne e = .ok e') (hv : fval p ρ e = some v)
    (hl : (check e).1 = true → ∀ k ∈ loads e, IntRange (centred p (ρ.load k)))
    (hc : caddr p ρ e' = some c) (hr : IntRange c) : toIntC p v = some c := by
  have hp' := hp
  obtain ⟨q1, q2, q3, q4⟩ := hp'
  by_cases hk : (check e).1 = true
  · have hcv : convert e = .ok e' := by simpa [filterOne, hk] using h
    have hz := caddr_z p ρ hp hρ e e' c hcv (hl hk) hc
    obtain ⟨z', hz', hm⟩ := filterOne_z h hv
    rw [hz] at hz'
    injection hz' with hz'
    subst hz'
    obtain ⟨hr1, hr2⟩ := fval_range (by omega) hρ hv
    unfold IntRange at hr
    have hcen := centred_of_modEq (by omega) q3 hr1 hr2 hm (by omega) (by omega)
    rw [toIntC_of_range hp hr1 hr2 (by rw [hcen]; exact hr), hcen]
  · have : e' = .comp .toAddress [e] := by
      have := h
      simp only [filterOne, hk, Bool.false_eq_true, if_false, Except.ok.injEq] at this
      exact this.symm
    subst this
    simpa [caddr, fvalAll, hv] using hc

example : PrimeShape bn128 ∧ (match filterOne (.comp .add [.load 0, .comp .mul [.big 3, .load 1]]) with
    | .ok e' => decide (caddr bn128 ⟨fun k => if k = 0 then bn128 - 1 else 5, fun _ _ => 0⟩ e' = some 14)
    | _ => false) = true := ⟨by unfold PrimeShape; decide, by decide +kernel⟩

/-- C64 fails in the wasm programs when the exact value does not fit: `a[2*i]` with `i = (p+1)/2` is `a[1]` in field arithmetic,
but the program computes another address. -/
theorem C64_wasm_violated : ∃ (e e' : IR) (ρ : Env) (v w : Int), EnvOk bn128 ρ ∧ filterOne e = .ok e' ∧
    fval bn128 ρ e = some v ∧ waddr bn128 ρ e' = some w ∧ v = 1 ∧ toIntW bn128 v = 1 ∧ w ≠ 1 := by
  refine ⟨.comp .mul [.big 2, .load 0], .comp .mulAddress [.u32 2, .comp .toAddress [.load 0]],
    ⟨fun _ => (bn128 + 1) / 2, fun _ _ => 0⟩, 1, 268435456, ⟨fun _ => by show 0 ≤ (bn128 + 1) / 2 ∧ (bn128 + 1) / 2 < bn128; decide,
      fun _ _ => by show (0 : Int) ≤ 0 ∧ (0 : Int) < bn128; decide⟩, ?_, ?_, ?_, rfl,
    by decide +kernel, by decide⟩
  · rfl
  · decide +kernel
  · decide +kernel

/-- C64 fails in the C++ programs in the same case: the program aborts although the index is 1. -/
theorem C64_cpp_violated : ∃ (e e' : IR) (ρ : Env), EnvOk bn128 ρ ∧ filterOne e = .ok e' ∧
    fval bn128 ρ e = some 1 ∧ toIntC bn128 1 = some 1 ∧ caddr bn128 ρ e' = none := by
  refine ⟨.comp .mul [.big 2, .load 0], .comp .mulAddress [.u32 2, .comp .toAddress [.load 0]],
    ⟨fun _ => (bn128 + 1) / 2, fun _ _ => 0⟩, ⟨fun _ => by show 0 ≤ (bn128 + 1) / 2 ∧ (bn128 + 1) / 2 < bn128; decide,
      fun _ _ => by show (0 : Int) ≤ 0 ∧ (0 : Int) < bn128; decide⟩, ?_, ?_, ?_, ?_⟩
  · rfl
  · decide +kernel
  · decide +kernel
  · decide +kernel

/-- `Fr_toInt` on elements that are 32-bit integers: the C++ routine returns that integer. -/
theorem C64_toInt_exact (p v : Int) (hp : PrimeShape p) (hv : 0 ≤ v) (hv' : v < p) (h : IntRange (centred p v)) :
    toIntC p v = some (centred p v) := toIntC_of_range hp hv hv' h

example : toIntC bn128 (bn128 - 7) = some (-7) ∧ centred bn128 (bn128 - 7) = -7 ∧ toIntC bn128 (2 ^ 31) = none := by
  refine ⟨?_, ?_, ?_⟩ <;> decide +kernel

/-- The other direction fails: `Fr_toInt` does not abort on every element that is no 32-bit integer.  Only the borrow of
each limb and the lowest limb are tested, so the element `4891460686036598780` is taken for `-5`. -/
theorem C64_toInt_violated : ∃ v : Int, 0 ≤ v ∧ v < bn128 ∧ ¬ IntRange (centred bn128 v) ∧ toIntC bn128 v = some (-5) := by
  refine ⟨4891460686036598780, by decide, by decide, ?_, by decide +kernel⟩
  unfold IntRange
  decide

/-- C65, totality: with at most as many indices as dimensions, no empty dimension and one list of indices per field access, an
address is produced. -/
theorem C65_total (at_ : IR) (dims : List Nat) (size : Nat) (accs : List BusAcc) (i0 : List IR) (ixs : List (List IR))
    (h0 : i0.length ≤ dims.length) (hd : ∀ d ∈ dims, d ≠ 0) (h : List.Forall₂ FitsAcc accs ixs) :
    ∃ e, fullAddress at_ dims size accs (i0 :: ixs) = .ok e := fullAddress_ok h0 hd h

example : List.Forall₂ FitsAcc [⟨3, 8, [2, 2]⟩] [[IR.load 0]] := by
  refine .cons ⟨by decide, by decide⟩ .nil

/-- C65, value: for a symbol with dimensions `dims` and elements of `s` signals, indexed by values `v0`, followed by field accesses
`fs` each indexed by values `vss`, the address instruction evaluates to the start of the symbol plus the row-major position
of the selected part plus, for each field, its offset and row-major position. -/
theorem C65_value (p : Int) (ρ : Env) (at_ e : IR) (b : Int) (dims : List Nat) (s : Nat) (fs : List Field)
    (i0 : List IR) (ixs : List (List IR)) (v0 : List Int) (vss : List (List Int))
    (h : fullAddress at_ dims (dims.prod * s) (fs.map Field.acc) (i0 :: ixs) = .ok e)
    (hb : zaddr p ρ at_ = some b) (h0 : IdxVals p ρ i0 v0) (hs : List.Forall₂ (IdxVals p ρ) ixs vss) :
    zaddr p ρ e = some (b + off dims v0 s + offFields fs vss) := fullAddress_z h hb h0 hs

/-- `x[1].f[i]` where `x` has 3 elements of 5 signals and starts at 10, field `f` has offset 1 and dimensions `[2, 2]`: the
address of `x[1].f[1]` is `10 + 5 + 1 + 2`. -/
example : (match fullAddress (.u32 10) [3] 15 [⟨1, 4, [2, 2]⟩] [[.big 1], [.load 0]] with
    | .ok e => decide (zaddr bn128 ⟨fun _ => 1, fun _ _ => 0⟩ e = some 18 ∧
        off [3] [1] 5 + offFields [⟨1, [2, 2], 1⟩] [[1]] = 8)
    | _ => false) = true := by decide +kernel

/-- The machine programs: the wasm word is the exact address modulo `2^32`. -/
theorem C65_wasm (p : Int) (ρ : Env) (e : IR) (w : Int) (h : waddr p ρ e = some w) :
    ∃ z, zaddr p ρ e = some z ∧ w = z % 2 ^ 32 := waddr_z p ρ e w h

example : waddr bn128 ⟨fun _ => bn128 - 1, fun _ _ => 0⟩
    (.comp .addAddress [.u32 4, .comp .toAddress [.load 0]]) = some 3 := by decide +kernel

/-- C65, range: indices inside the dimensions select a block of signals inside the array. -/
theorem C65_range (ds : List Nat) (vs : List Int) (s : Nat) (h : InRange ds vs) :
    0 ≤ off ds vs s ∧ off ds vs s + block ds vs.length s ≤ ds.prod * s := off_range h

example : InRange [2, 3] [1, 2] ∧ off [2, 3] [1, 2] 4 = 20 ∧ block [2, 3] 2 4 = 4 := by
  refine ⟨⟨by decide, by decide, by decide, by decide, trivial⟩, by decide, by decide⟩

/-- C65, order: of two index lists of the same length inside the dimensions, the one that comes first lexicographically
selects a block that ends before the other's begins; so different indices never share a signal. -/
theorem C65_order (ds : List Nat) (vs ws : List Int) (s : Nat) (h1 : InRange ds vs) (h2 : InRange ds ws)
    (hl : vs.length = ws.length) (h : LexLt vs ws) : off ds vs s + block ds vs.length s ≤ off ds ws s :=
  off_lex h1 h2 hl h

example : LexLt [0, 2] [1, 0] ∧ off [2, 3] [0, 2] 4 + block [2, 3] 2 4 = 12 ∧ off [2, 3] [1, 0] 4 = 12 :=
  ⟨Or.inl (by decide), by decide, by decide⟩

/-- C65, components: the position of a component in its flattened array is the same row-major position. -/
theorem C65_component (ls is : List Nat) (hd : ∀ d ∈ ls, d ≠ 0) (hl : is.length ≤ ls.length) :
    ∃ r, computeJump ls is = .ok r ∧ (r : Int) = off ls (is.map fun n : Nat => (n : Int)) 1 := by
  obtain ⟨r, hr⟩ := jumpLoop_ok ls is 0 (ls.foldl (· * ·) 1) hl hd
  refine ⟨r, hr, ?_⟩
  have hf : ls.foldl (· * ·) 1 = ls.prod := by
    rw [List.prod_eq_foldl]
  rw [hf] at hr
  simpa using jumpLoop_off ls is 0 r hr

example : computeJump [2, 3, 4] [1, 2, 3] = .ok 23 := rfl

/-- C65, constant folding: `reduce_instruction` keeps the value of every instruction, as a field element and as an address. -/
theorem C65_reduce (p : Int) (ρ : Env) (e e' : IR) (ht : AllTwo e) (h : reduce e = .ok e') :
    fval p ρ e' = fval p ρ e ∧ zaddr p ρ e' = zaddr p ρ e := reduce_eval p ρ e e' ht h

example : (match reduce (.comp .addAddress [.comp .mulAddress [.u32 3, .u32 4], .comp .mulAddress [.u32 2, .load 0]]) with
    | .ok (.comp .addAddress [.u32 n, .comp .mulAddress [.u32 2, .load 0]]) => decide (n = 12)
    | _ => false) = true := by decide +kernel

end Verif.Props.Address
