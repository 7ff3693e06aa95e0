import Verif.ModArith

/-!
Model of `program_structure/src/utils/memory_slice.rs`: the arrays of the symbolic executor.

Simplifications: `usize` is `Nat` (the product of the dimensions is assumed not to wrap); the many
error kinds of `MemoryError` which this file never produces are left out; references into the array
are represented by the values (or positions) they point to.
-/

namespace Verif.Memory

open Verif.ModArith

/-- memory_slice.rs:23-40, the error kinds produced by the functions of this file. -/
inductive MemErr where
  | outOfBounds
  | mismatched (given original : Nat)
  | mismatchedWeak (given original : Nat)
  deriving DecidableEq, Repr

/-- memory_slice.rs:48-51, `MemorySlice`. -/
structure Slice (α : Type) where
  route : List Nat
  values : List α
  deriving DecidableEq, Repr

/-- A computation of this file: the outer layer is the abort of the compiler (index outside a
vector, division by zero), the inner one the returned `Result`. -/
abbrev Mem (α : Type) := Res (Except MemErr α)

variable {α : Type}

/-- memory_slice.rs:95-105, the loop of `get_initial_cell`; the guard on the lengths (91-93) is the
last case. Division by a zero dimension cannot occur because the index is compared first. -/
def cellLoop : List Nat → List Nat → Nat → Nat → Except MemErr Nat
  | [], _, _, cell => .ok cell
  | a :: as, d :: ds, jump, cell =>
    if a ≥ d then .error .outOfBounds
    else cellLoop as ds (jump / d) (cell + (jump / d) * a)
  | _ :: _, [], _, _ => .error .outOfBounds

/-- memory_slice.rs:87-107, `get_initial_cell`. The length guard is tested before the loop. -/
def getInitialCell (s : Slice α) (access : List Nat) : Except MemErr Nat :=
  if access.length > s.route.length then .error .outOfBounds
  else cellLoop access s.route s.values.length 0

/-- memory_slice.rs:118-125, first loop of `check_correct_dims`; returns the remaining
dimensions. -/
def dropAccess : List Nat → List Nat → Except MemErr (List Nat)
  | [], ds => .ok ds
  | a :: as, d :: ds => if a ≥ d then .error .outOfBounds else dropAccess as ds
  | _ :: _, [] => .error .outOfBounds

/-- memory_slice.rs:127-163, second loop of `check_correct_dims`: the dimensions of the new value
against the first remaining dimensions of the array. The two comparisons (smaller, greater) return
the same errors. The last case is excluded by the length guard. -/
def compareDims (strict : Bool) : List Nat → List Nat → Except MemErr Unit
  | [], _ => .ok ()
  | n :: ns, d :: ds =>
    if n < d then
      if strict then .error (.mismatched n d) else .error (.mismatchedWeak n d)
    else if n > d then
      if strict then .error (.mismatched n d) else .error (.mismatchedWeak n d)
    else compareDims strict ns ds
  | _ :: _, [] => .error .outOfBounds

/-- memory_slice.rs:108-165, `check_correct_dims`. -/
def checkCorrectDims (s : Slice α) (access : List Nat) (new : Slice α) (strict : Bool) :
    Except MemErr Unit :=
  if access.length + new.route.length > s.route.length then .error .outOfBounds
  else match dropAccess access s.route with
    | .error e => .error e
    | .ok rest => compareDims strict new.route rest

/-- memory_slice.rs:169-184, `generate_new_route_from_access`. -/
def newRoute (s : Slice α) (access : List Nat) : Except MemErr (List Nat × Nat) :=
  if access.length > s.route.length then .error .outOfBounds
  else
    let size := s.route.drop access.length
    .ok (size, size.foldl (· * ·) 1)

/-- memory_slice.rs:198-203: `n` consecutive cells starting at `start`; indexing outside the vector
aborts. -/
def copyCells (values : List α) (start : Nat) : Nat → Res (List α)
  | 0 => .ok []
  | n + 1 =>
    match values[start]? with
    | none => .error .panic
    | some v => (copyCells values (start + 1) n).map (v :: ·)

/-- memory_slice.rs:186-206 and 350-355, `generate_slice_from_access` / `access_values`; also
`generate_references_from_access` (208-232), which returns references to the same cells. -/
def accessValues (s : Slice α) (access : List Nat) : Mem (Slice α) :=
  if access.isEmpty then .ok (.ok s)
  else match newRoute s access with
    | .error e => .ok (.error e)
    | .ok (size, n) =>
      match getInitialCell s access with
      | .error e => .ok (.error e)
      | .ok cell =>
        match copyCells s.values cell n with
        | .error e => .error e
        | .ok vs => .ok (.ok ⟨size, vs⟩)

/-- memory_slice.rs:234-262 and 364-369, `generate_mut_references_from_access`: the positions of the
cells handed out for modification. -/
def mutPositions (s : Slice α) (access : List Nat) : Except MemErr (List Nat) :=
  if access.isEmpty then .ok (List.range s.values.length)
  else match newRoute s access with
    | .error e => .error e
    | .ok (_, n) =>
      match getInitialCell s access with
      | .error e => .error e
      | .ok cell =>
        .ok ((List.range s.values.length).filter (fun i => decide (i ≥ cell) && decide (i < cell + n)))

/-- memory_slice.rs:271-283, `new_with_route` (and `new`, 265-267, with the empty route). -/
def newWithRoute (route : List Nat) (v : α) : Slice α :=
  ⟨route, List.replicate (route.foldl (· * ·) 1) v⟩

/-- memory_slice.rs:294-297: consecutive writes; a write outside the vector aborts. -/
def writeCells (values : List α) (cell : Nat) : List α → Res (List α)
  | [] => .ok values
  | v :: vs => if cell < values.length then writeCells (values.set cell v) (cell + 1) vs
    else .error .panic

/-- memory_slice.rs:302-312, the loop of the weak branch of `insert_values` over the indices still
to be treated; `rec` is the recursive call. The result of that call is discarded, only the array is
kept; a failing `access_values` on the new value ends the loop with that error. -/
def weakLoop (rec : Slice α → List Nat → Slice α → Res (Slice α × Except MemErr Unit))
    (access : List Nat) (new : Slice α) (final : MemErr) :
    List Nat → Slice α → Res (Slice α × Except MemErr Unit)
  | [], s => .ok (s, .error final)
  | i :: is, s =>
    match accessValues new [i] with
    | .error e => .error e
    | .ok (.error e) => .ok (s, .error e)
    | .ok (.ok sub) =>
      match rec s (access ++ [i]) sub with
      | .error e => .error e
      | .ok (s', _) => weakLoop rec access new final is s'

/-- memory_slice.rs:284-317, `insert_values`, with the depth of recursion bounded by the first
argument. The array after the call is returned with the result of the call. -/
def insertRec (strict : Bool) : Nat → Slice α → List Nat → Slice α →
    Res (Slice α × Except MemErr Unit)
  | 0, _, _, _ => .error .outOfFuel
  | fuel + 1, s, access, new =>
    match checkCorrectDims s access new strict with
    | .ok () =>
      match getInitialCell s access with
      | .error e => .ok (s, .error e)
      | .ok cell =>
        match writeCells s.values cell new.values with
        | .error e => .error e
        | .ok vs => .ok (⟨s.route, vs⟩, .ok ())
    | .error (.mismatchedWeak d1 d2) =>
      match new.route with
      | [] => .error .panic
      | n :: _ => weakLoop (insertRec strict fuel) access new (.mismatchedWeak d1 d2) (List.range n) s
    | .error e => .ok (s, .error e)

/-- memory_slice.rs:284-317, `insert_values`. Each recursive call has a value of one dimension
less. -/
def insertValues (s : Slice α) (access : List Nat) (new : Slice α) (strict : Bool) :
    Res (Slice α × Except MemErr Unit) :=
  insertRec strict (new.route.length + 1) s access new

/-- memory_slice.rs:319-329, `insert_value_by_index`. -/
def insertValueByIndex (s : Slice α) (index : Nat) (v : α) : Mem (Slice α) :=
  if index > s.values.length then .ok (.error .outOfBounds)
  else if index < s.values.length then .ok (.ok ⟨s.route, s.values.set index v⟩)
  else .error .panic

/-- memory_slice.rs:341-345, the loop of `get_access_index`; division by zero aborts. -/
def indexLoop : List Nat → Nat → Nat → Res (List Nat)
  | [], _, _ => .ok []
  | d :: ds, cells, index =>
    if d = 0 then .error .panic
    else if cells / d = 0 then .error .panic
    else (indexLoop ds (cells / d) (index % (cells / d))).map (index / (cells / d) :: ·)

/-- memory_slice.rs:331-348, `get_access_index`. -/
def getAccessIndex (s : Slice α) (index : Nat) : Mem (List Nat) :=
  if index > s.values.length then .ok (.error .outOfBounds)
  else match indexLoop s.route s.values.length index with
    | .error e => .error e
    | .ok a => .ok (.ok a)

/-- memory_slice.rs:371-379, `access_value_by_index`; also
`access_values_by_index_mut_reference` (381-388), `get_reference_to_single_value_by_index` (404-412)
and `get_mut_reference_to_single_value_by_index` (430-438), which have the same guard and the same
indexing. -/
def accessValueByIndex (s : Slice α) (index : Nat) : Mem α :=
  if index > s.values.length then .ok (.error .outOfBounds)
  else match s.values[index]? with
    | none => .error .panic
    | some v => .ok (.ok v)

/-- memory_slice.rs:396-403 and 422-429, `get_reference_to_single_value` (and its mutable form): the
lengths are asserted equal. -/
def getSingle (s : Slice α) (access : List Nat) : Mem α :=
  if s.route.length ≠ access.length then .error .panic
  else match getInitialCell s access with
    | .error e => .ok (.error e)
    | .ok cell =>
      match s.values[cell]? with
      | none => .error .panic
      | some v => .ok (.ok v)

end Verif.Memory
