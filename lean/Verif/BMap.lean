import Mathlib.Data.List.Pairwise

/-!
# `BTreeMap<usize, V>` (external, `std::collections`)

Modelled as an association list kept in ascending key order; iteration order is the list order.
Also used for `HashMap<usize, usize>` in places where the iteration order is not observable (said at each use).
-/

namespace Verif

/-- A `BTreeMap<usize, V>`. -/
abbrev BMap (V : Type) := List (Nat × V)

namespace BMap
variable {V : Type}

/-- `BTreeMap::get`. -/
def get : BMap V → Nat → Option V
  | [], _ => none
  | (k', v) :: m, k => if k' = k then some v else get m k

/-- `BTreeMap::insert`. -/
def insert : BMap V → Nat → V → BMap V
  | [], k, v => [(k, v)]
  | (k', v') :: m, k, v =>
    if k < k' then (k, v) :: (k', v') :: m
    else if k = k' then (k, v) :: m
    else (k', v') :: insert m k v

/-- `BTreeMap::remove` (the removed value is `get m k`). -/
def remove (m : BMap V) (k : Nat) : BMap V := m.filter fun e => decide (e.1 ≠ k)

/-- `BTreeMap::keys`. -/
def keys (m : BMap V) : List Nat := m.map Prod.fst

/-- Invariant: strictly ascending keys. -/
def Sorted (m : BMap V) : Prop := m.Pairwise fun a b => a.1 < b.1

end BMap
end Verif
