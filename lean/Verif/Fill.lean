import Verif.Exec

/-!
# Assignment of the inputs of a component

Model of the part of `constraint_generation/src/environment_utils/component_representation.rs` and `bus_representation.rs` that
records which inputs of a component have been assigned: signals, arrays, buses, buses in buses and their arrays.  Tags are left
out (see `Verif.Tags`).  Names of inputs and of fields are positions.  Array accesses are resolved to the interval of cells
they denote (row-major, `Verif.Memory`); the check that the assigned value has the dimensions of the accessed array and the check
that both buses are instances of the same node are taken as passed.
-/

namespace Verif.Fill

open Verif.Exec (AState assignCell)

mutual
/-- The cells of an input or of a field: signals (`SignalSlice`) or buses (`BusSlice`). -/
inductive Wire where
  | sig (cells : List AState)
  | bus (cells : List Bus)

/-- bus_representation.rs:11-17 `BusRepresentation`: `has_assignment` and the fields. -/
inductive Bus where
  | mk (has : Bool) (fields : List Field)

/-- A field with its entry in `unassigned_fields` (for an input of the component: in `unassigned_inputs`); 0 stands for no
entry. -/
inductive Field where
  | mk (w : Wire) (left : Nat)
end

/-- Errors: `MultipleAssignments` and `MultipleAssignmentsBus`; access out of bounds or to a missing name; subtraction below zero
in a counter (an abort in builds with overflow checks, in other builds the counter wraps around). -/
inductive Err where
  | multiple
  | access
  | underflow
  deriving DecidableEq, Repr

/-- What an assignment denotes after the name of the input: cells `start … start + len - 1` of the array, or a field of the
bus in one cell (`AccessingInformationBus`). -/
inductive Path where
  | here (start len : Nat)
  | under (cell field : Nat) (rest : Path)
  deriving DecidableEq, Repr

/-- Number of elements of the assigned value (bus_representation.rs:190-200). -/
def Path.size : Path → Nat
  | .here _ n => n
  | .under _ _ r => r.size

/-- The wire of a field. -/
def Field.wire : Field → Wire
  | .mk w _ => w

/-- The counter of a field. -/
def Field.left : Field → Nat
  | .mk _ l => l

/-- component_representation.rs:871-885 `update_unassigned_inputs`, the same code in bus_representation.rs:241-250 and 298-306:
lower a counter; nothing happens without an entry. -/
def lower (left d : Nat) : Except Err Nat :=
  if left = 0 then .ok 0 else if left < d then .error .underflow else .ok (left - d)

/-- bus_representation.rs:177-179 `has_unassigned_fields`; component_representation.rs:722-724 without the tags. -/
def hasOpen (fs : List Field) : Bool := fs.any fun f => decide (f.left ≠ 0)

/-- assignment_utils.rs:231-309, the loop over the cells of `perform_signal_assignment`. -/
def assignSigs (new : AState) : List AState → Except Err (List AState)
  | [] => .ok []
  | c :: cs =>
    match assignCell c new with
    | .error _ => .error .multiple
    | .ok c' =>
      match assignSigs new cs with
      | .error e => .error e
      | .ok cs' => .ok (c' :: cs')

mutual
/-- bus_representation.rs:314-381 `completely_assign_bus`. -/
def completeB (new : AState) : Bus → Except Err Bus
  | .mk has fs =>
    if has then .error .multiple
    else
      match completeFs new fs with
      | .error e => .error e
      | .ok fs' => .ok (.mk (decide (new = .assigned)) fs')

/-- bus_representation.rs:338-378, one field: signals by `perform_signal_assignment`, buses by `perform_bus_assignment`; the
entry of the field is removed. -/
def completeF (new : AState) : Field → Except Err Field
  | .mk (.sig cs) _ =>
    match assignSigs new cs with
    | .error e => .error e
    | .ok cs' => .ok (.mk (.sig cs') 0)
  | .mk (.bus bs) _ =>
    match completeBs new bs with
    | .error e => .error e
    | .ok bs' => .ok (.mk (.bus bs') 0)

/-- bus_representation.rs:338, the loop over the fields. -/
def completeFs (new : AState) : List Field → Except Err (List Field)
  | [] => .ok []
  | f :: fs =>
    match completeF new f with
    | .error e => .error e
    | .ok f' =>
      match completeFs new fs with
      | .error e => .error e
      | .ok fs' => .ok (f' :: fs')

/-- assignment_utils.rs:344-360, the loop over the cells of `perform_bus_assignment`. -/
def completeBs (new : AState) : List Bus → Except Err (List Bus)
  | [] => .ok []
  | b :: bs =>
    match completeB new b with
    | .error e => .error e
    | .ok b' =>
      match completeBs new bs with
      | .error e => .error e
      | .ok bs' => .ok (b' :: bs')
end

/-- Assignment to a field after its name: component_representation.rs:437-471 (`assign_value_to_signal_init`), 524-556
(`assign_value_to_bus_init`), 648-711 (`assign_value_to_bus_field_init`) for inputs, and the part of bus_representation.rs:217-310
(`assign_value_to_field`) after line 217 for fields, which do the same.  For a field of a bus in a cell the flag `has_assignment`
of that bus is set (bus_representation.rs:203-211), and the counter is lowered by 1 when no field of that bus is open. -/
def assign (new : AState) : Path → Field → Except Err Field
  | .here s n, .mk (.sig cs) left =>
    if cs.length < s + n then .error .access
    else
      match assignSigs new ((cs.drop s).take n) with
      | .error e => .error e
      | .ok mid =>
        match lower left n with
        | .error e => .error e
        | .ok left' => .ok (.mk (.sig (cs.take s ++ mid ++ cs.drop (s + n))) left')
  | .here s n, .mk (.bus bs) left =>
    if bs.length < s + n then .error .access
    else
      match completeBs new ((bs.drop s).take n) with
      | .error e => .error e
      | .ok mid =>
        match lower left n with
        | .error e => .error e
        | .ok left' => .ok (.mk (.bus (bs.take s ++ mid ++ bs.drop (s + n))) left')
  | .under _ _ _, .mk (.sig _) _ => .error .access
  | .under i j r, .mk (.bus bs) left =>
    match bs[i]? with
    | none => .error .access
    | some (.mk has fs) =>
      match fs[j]? with
      | none => .error .access
      | some f =>
        match assign new r f with
        | .error e => .error e
        | .ok f' =>
          match (if hasOpen (fs.set j f') then Except.ok left else lower left 1) with
          | .error e => .error e
          | .ok left' =>
            .ok (.mk (.bus (bs.set i (.mk (has || (decide (r.size ≠ 0) && decide (new = .assigned))) (fs.set j f')))) left')

/-- One assignment: number of the input, what of it, and the state (`Assigned` or `MightAssigned` with the conditions). -/
structure Op where
  input : Nat
  path : Path
  new : AState
  deriving DecidableEq

/-- An assignment to an input of an initialised component; a missing name is `AssignmentOutput`. -/
def step (op : Op) (c : List Field) : Except Err (List Field) :=
  match c[op.input]? with
  | none => .error .access
  | some f =>
    match assign op.new op.path f with
    | .error e => .error e
    | .ok f' => .ok (c.set op.input f')

/-- Assignments one after the other. -/
def run : List Op → List Field → Except Err (List Field)
  | [], c => .ok c
  | op :: ops, c =>
    match step op c with
    | .error e => .error e
    | .ok c' => run ops c'

/-! ## Initial state -/

mutual
/-- bus_representation.rs:45-101 `initialize_bus` with `is_initialized = false`, component_representation.rs:165-193
`initialize_component` for the inputs: all signals unassigned, counters are numbers of cells.  The argument gives the
structure only.  One bus. -/
def initB : Bus → Bus
  | .mk _ fs => .mk false (initFs fs)

/-- Cells of an array of buses. -/
def initBs : List Bus → List Bus
  | [] => []
  | b :: bs => initB b :: initBs bs

/-- One field or input. -/
def initF : Field → Field
  | .mk (.sig cs) _ => .mk (.sig (cs.map fun _ => .noAssigned)) cs.length
  | .mk (.bus bs) _ => .mk (.bus (initBs bs)) bs.length

/-- All fields or inputs. -/
def initFs : List Field → List Field
  | [] => []
  | f :: fs => initF f :: initFs fs
end

/-! ## Assignments before the initialisation -/

/-- Is the input an array of signals? -/
def isSig (c : List Field) (op : Op) : Bool :=
  match c[op.input]? with
  | some (.mk (.sig _) _) => true
  | _ => false

/-- Is it the assignment of whole buses? -/
def isWhole (op : Op) : Bool :=
  match op.path with
  | .here _ _ => true
  | .under _ _ _ => false

/-- component_representation.rs:241-266: assignments made before the component is initialised (some input with tags is not yet
assigned) are collected in three lists, `to_assign_inputs`, `to_assign_input_buses`, `to_assign_input_bus_fields`, and carried out
list by list. -/
def delayed (c : List Field) (ops : List Op) : List Op :=
  ops.filter (fun o => isSig c o) ++ ops.filter (fun o => !isSig c o && isWhole o) ++
    ops.filter (fun o => !isSig c o && !isWhole o)

/-- Assignments of which the first ones, `before`, come before the initialisation. -/
def runDelayed (before after : List Op) (c : List Field) : Except Err (List Field) :=
  run (delayed c before ++ after) c

end Verif.Fill
