import Mathlib.Data.ZMod.Basic
import Mathlib.Algebra.BigOperators.Group.List.Basic
import Verif.ModArith

/-!
# Coefficient maps (`HashMap<C, BigInt>`)

`std::collections::HashMap` is external.  It is modelled as an association list; `Nodup keys` is the invariant
(`CMap.WF`).  Iteration order is the list order: theorems quantify over all lists, so over all orders.
-/

namespace Verif

/-- A coefficient map `HashMap<C, BigInt>` (algebra.rs:19-31, 1233 `RawExpr`). -/
abbrev CMap (K : Type) := List (K × Int)

namespace CMap
variable {K : Type} [DecidableEq K]

/-- `HashMap::get`. -/
def get : CMap K → K → Option Int
  | [], _ => none
  | (k', v) :: m, k => if k' = k then some v else get m k

/-- `HashMap::contains_key`. -/
def contains (m : CMap K) (k : K) : Bool := (get m k).isSome

/-- `HashMap::insert`. -/
def insert : CMap K → K → Int → CMap K
  | [], k, v => [(k, v)]
  | (k', v') :: m, k, v => if k' = k then (k, v) :: m else (k', v') :: insert m k v

/-- `HashMap::remove` (the returned value is `get m k`). -/
def remove (m : CMap K) (k : K) : CMap K := m.filter fun e => decide (e.1 ≠ k)

/-- `HashMap::keys`. -/
def keys (m : CMap K) : List K := m.map Prod.fst

/-- Invariant of a hash map: each key once. -/
def WF (m : CMap K) : Prop := (keys m).Nodup

end CMap

/-! ## Specification: the value of a linear combination -/

/-- Spec: value of `Σ v·ρ(k)`; `ρ` assigns field elements to signals, the constant key stands for the wire carrying
`1` (hypothesis `ρ default = 1` where it matters). -/
def ev {K : Type} {p : Nat} (ρ : K → ZMod p) (m : CMap K) : ZMod p :=
  (m.map fun e => (e.2 : ZMod p) * ρ e.1).sum

/-- Spec: all coefficients are representatives in `[0,p)`. -/
def CanonMap {K : Type} (p : Nat) (m : CMap K) : Prop := ∀ e ∈ m, 0 ≤ e.2 ∧ e.2 < p

/-- Spec: no coefficient is zero. -/
def NoZero {K : Type} (m : CMap K) : Prop := ∀ e ∈ m, e.2 ≠ 0

end Verif
