import Verif.Exec
import Verif.Memory

/-!
Model of the symbolic execution of statements on arrays, `constraint_generation/src/execute.rs`: the
values of expressions are slices (`program_structure/src/utils/memory_slice.rs`, see `Verif.Memory`)
of symbolic field elements (see `Verif.Algebra`).

Fragment: arrays of variables and of signals of any number of dimensions, indices that are arbitrary
expressions, inline and uniform arrays, all operators, the inline conditional, declarations,
assignments to (parts of) variables, `<==` and `===` between arrays, `if`, `while` with conditions
known to the compiler, blocks. Left out (see `Verif.Exec` for scalars): loops with unknown condition,
the assignment states of signals, `return`; tags, components, buses, calls.

A signal array is given where it is used by the number of its first cell and its dimensions. The
branches of `if` and the body of `while` are always blocks; a branch that is a single statement cannot
be a declaration (lang.lalrpop), so this makes no difference.

The argument `strict` is not part of the compiler. `strict = false` is the code. With `strict = true`
the execution stops with `lost` when the code replaces a slice with dimensions by a single unknown
cell.
-/

namespace Verif.ArrExec

open Verif.ModArith Verif.Algebra
open Verif.Exec (Op UOp V applyOp applyUOp cOp cUOp envGet envSet envAdd optOf)
open Verif.Memory

/-- ast.rs, `Expression` (the part modelled). `nil` and `cons` build the lists of indices and of
elements. -/
inductive AExp where
  | num (v : Int)
  | sig (s : Nat) (dims : List Nat) (is : AExp)
  | var (x : Nat) (is : AExp)
  | bin (o : Op) (l r : AExp)
  | un (o : UOp) (e : AExp)
  | sw (c a b : AExp)
  | arr (es : AExp)
  | uni (v n : AExp)
  | nil
  | cons (e es : AExp)
  deriving DecidableEq, Repr

/-- ast.rs, `Statement` (the part modelled): `decl` declares a variable, `assign` is `=`, `cassign` is
`<==` onto the cells of a signal, `check` is `===`. -/
inductive AStmt where
  | skip
  | decl (x : Nat) (ds : AExp)
  | assign (x : Nat) (is e : AExp)
  | cassign (s : Nat) (dims : List Nat) (is e : AExp)
  | check (l r : AExp)
  | seq (a b : AStmt)
  | ite (c : AExp) (t e : AStmt)
  | loop (c : AExp) (b : AStmt)
  | block (b : AStmt)
  deriving DecidableEq, Repr

/-- Ways the execution ends early. `lost` and `unknownLoop` only mark the limits of the model. -/
inductive AErr where
  | arith (e : Fail)
  | mem (e : MemErr)
  | unknownSize
  | sizeTooBig
  | unknownTarget
  | constraintInUnknown
  | nonQuadratic
  | panic
  | outOfFuel
  | unknownLoop
  | lost
  deriving DecidableEq, Repr

abbrev Ax (α : Type) := Except AErr α

section Slices

variable {α : Type}

/-- execute.rs:4100-4108, `treat_result_with_memory_error` around `access_values`. -/
def access (s : Slice α) (is : List Nat) : Ax (Slice α) :=
  match accessValues s is with
  | .error _ => .error .panic
  | .ok (.error e) => .error (.mem e)
  | .ok (.ok r) => .ok r

/-- execute.rs:3940-3967, `treat_result_with_memory_error_void` around `insert_values` (never strict):
a weak mismatch of dimensions is only a warning. -/
def insertVoid (s : Slice α) (is : List Nat) (v : Slice α) : Ax (Slice α) :=
  match insertValues s is v false with
  | .error _ => .error .panic
  | .ok (s', .ok ()) => .ok s'
  | .ok (s', .error (.mismatchedWeak _ _)) => .ok s'
  | .ok (_, .error e) => .error (.mem e)

/-- memory_slice.rs:459-463, `unwrap_to_single`. -/
def single (s : Slice α) : Ax α :=
  if s.route.isEmpty then
    match s.values.getLast? with
    | some v => .ok v
    | none => .error .panic
  else .error .panic

/-- The only value of an expression that is not a list. -/
def getOne : List (Slice α) → Ax (Slice α)
  | [s] => .ok s
  | _ => .error .panic

/-- The same, as a list again. -/
def onlyOne (x : Ax (List (Slice α))) : Ax (List (Slice α)) :=
  match x with
  | .error e => .error e
  | .ok l => (getOne l).map ([·])

/-- execute.rs:1021-1023: position-wise maximum; a dimension the first array does not have is outside
the vector. -/
def maxRoute : List Nat → List Nat → Ax (List Nat)
  | ds, [] => .ok ds
  | d :: ds, r :: rs => (maxRoute ds rs).map (max d r :: ·)
  | [], _ :: _ => .error .panic

/-- execute.rs:1018-1025, over all further elements. -/
def maxRoutes : List Nat → List (Slice α) → Ax (List Nat)
  | ds, [] => .ok ds
  | ds, s :: ss =>
    match maxRoute ds s.route with
    | .error e => .error e
    | .ok ds' => maxRoutes ds' ss

/-- execute.rs:1029-1044 and 1184-1198: insertion row by row. -/
def fillRows (s : Slice α) (row : Nat) : List (Slice α) → Ax (Slice α)
  | [] => .ok s
  | v :: vs =>
    match insertVoid s [row] v with
    | .error e => .error e
    | .ok s' => fillRows s' (row + 1) vs

/-- execute.rs:1007-1046, the value of an inline array. -/
def inlineArray (zero : α) : List (Slice α) → Ax (Slice α)
  | [] => .error .panic
  | s :: ss =>
    match maxRoutes s.route ss with
    | .error e => .error e
    | .ok dims => fillRows (newWithRoute ((ss.length + 1) :: dims) zero) 0 (s :: ss)

/-- execute.rs:1177-1199, the value of a uniform array. -/
def uniformArray (dflt : α) (n : Nat) (s : Slice α) : Ax (Slice α) :=
  fillRows (newWithRoute (n :: s.route) dflt) 0 (List.replicate n s)

/-- The single values of a list of slices (indices, dimensions). -/
def singles : List (Slice α) → Ax (List α)
  | [] => .ok []
  | s :: ss =>
    match single s with
    | .error e => .error e
    | .ok v => (singles ss).map (v :: ·)

/-- Number of dimensions of the value of an expression, from the dimensions of the variables; not part
of the compiler, only used with `strict = true`. A variable that does not exist has no value at all. -/
def nd (env : List (List (Nat × Slice α))) : AExp → Option Nat
  | .num _ => some 0
  | .sig _ dims is => (len is).map fun n => dims.length - n
  | .var x is =>
    match envGet env x with
    | none => some 0
    | some s => (len is).map fun n => s.route.length - n
  | .bin _ _ _ => some 0
  | .un _ _ => some 0
  | .sw _ a b => if nd env a = nd env b then nd env a else none
  | .arr es => (nd env es).map (· + 1)
  | .uni v _ => (nd env v).map (· + 1)
  | .nil => none
  | .cons e _ => nd env e
where
  /-- Length of a list of expressions. -/
  len : AExp → Option Nat
    | .nil => some 0
    | .cons _ es => (len es).map (· + 1)
    | _ => none

end Slices

/-! ### The executor -/

/-- A single unknown cell: execute.rs:1239, 2848, 2884. -/
def unknownCell : Slice V := ⟨[], [.nonQuadratic]⟩

/-- The cells of a signal array: execute.rs:2900-2930 and `unfold_signals`. -/
def signalSlice (s : Nat) (dims : List Nat) : Slice V :=
  ⟨dims, (List.range dims.prod).map fun i => .signal (s + i)⟩

/-- execute.rs:3792-3815, `valid_indexing` and `cast_indexing`: an index that does not fit a `usize` is
refused; `none` if some index is not known. -/
def position (vs : List V) : Ax (Option (List Nat)) :=
  if vs.any fun v => (match v with | .number _ => true | _ => false) && (getUsize v).isNone then
    .error (.mem .outOfBounds)
  else .ok (vs.mapM getUsize)

/-- execute.rs:2845-2866 (`execute_variable`) and 2882-2930 (`execute_signal`): reading at a position.
At an unknown position the result is a single unknown cell, whatever the dimensions left. -/
def readAt (strict : Bool) (s : Slice V) (n : Nat) : Option (List Nat) → Ax (List (Slice V))
  | none => if strict && decide (n ≠ s.route.length) then .error .lost else .ok [unknownCell]
  | some is => (access s is).map ([·])

/-- execute.rs:953-1271, `execute_expression`. The list of the values of a list of expressions, a list
of one slice for any other expression. In an inline conditional with unknown condition neither branch
is executed (1227-1242). The size of a uniform array must be known (1170-1175, `unreachable!`
otherwise). -/
def eval (strict : Bool) (field : Int) (env : List (List (Nat × Slice V))) : AExp → Ax (List (Slice V))
  | .num v => .ok [⟨[], [.number v]⟩]
  | .sig s dims is =>
    match eval strict field env is with
    | .error e => .error e
    | .ok js =>
      match singles js with
      | .error e => .error e
      | .ok vs =>
        match position vs with
        | .error e => .error e
        | .ok pos => readAt strict (signalSlice s dims) vs.length pos
  | .var x is =>
    match eval strict field env is with
    | .error e => .error e
    | .ok js =>
      match singles js with
      | .error e => .error e
      | .ok vs =>
        match position vs with
        | .error e => .error e
        | .ok pos =>
          match envGet env x with
          | none => .error .panic
          | some s => readAt strict s vs.length pos
  | .bin o l r =>
    match eval strict field env l with
    | .error e => .error e
    | .ok ls =>
      match eval strict field env r with
      | .error e => .error e
      | .ok rs =>
        match singles ls, singles rs with
        | .ok [a], .ok [b] =>
          match applyOp o a b field with
          | .error e => .error (.arith e)
          | .ok v => .ok [⟨[], [v]⟩]
        | _, _ => .error .panic
  | .un o e =>
    match eval strict field env e with
    | .error e => .error e
    | .ok es =>
      match singles es with
      | .ok [a] => .ok [⟨[], [applyUOp o a field]⟩]
      | _ => .error .panic
  | .sw c a b =>
    match eval strict field env c with
    | .error e => .error e
    | .ok cs =>
      match singles cs with
      | .ok [v] =>
        match getBool v field with
        | some true => onlyOne (eval strict field env a)
        | some false => onlyOne (eval strict field env b)
        | none =>
          if strict && decide (nd env a ≠ some 0 ∨ nd env b ≠ some 0) then .error .lost
          else .ok [unknownCell]
      | _ => .error .panic
  | .arr es =>
    match eval strict field env es with
    | .error e => .error e
    | .ok vs => (inlineArray (.number 0) vs).map ([·])
  | .uni v n =>
    match eval strict field env n with
    | .error e => .error e
    | .ok ns =>
      match singles ns with
      | .ok [k] =>
        match getUsize k with
        | none => .error .panic
        | some k =>
          match eval strict field env v with
          | .error e => .error e
          | .ok vs =>
            match getOne vs with
            | .error e => .error e
            | .ok s => (uniformArray .nonQuadratic k s).map ([·])
      | _ => .error .panic
  | .nil => .ok []
  | .cons e es =>
    match eval strict field env e with
    | .error e => .error e
    | .ok vs =>
      match getOne vs with
      | .error e => .error e
      | .ok s => (eval strict field env es).map (s :: ·)

/-- execute.rs:45-58, the part of `RuntimeInformation` used: variable blocks, innermost first;
`block_type == BlockType::Unknown`; the constraints of the node. -/
structure ASt where
  env : List (List (Nat × Slice V))
  unknown : Bool
  cons : List (Constraint Nat)

/-- execute.rs:632-660 and 434-465: one constraint per cell. -/
def equalities (field : Int) : List V → List V → Ax (List (Constraint Nat))
  | [], _ => .ok []
  | _ :: _, [] => .error .panic
  | l :: ls, r :: rs =>
    match Algebra.sub l r field with
    | .error e => .error (.arith e)
    | .ok d =>
      match toConstraint d field with
      | none => .error .nonQuadratic
      | some k => (equalities field ls rs).map (k :: ·)

/-- execute.rs:1569-1618, assignment of the slice `v` to the variable with content `s`. At an unknown
position the whole variable becomes unknown. -/
def writeAt (unknown : Bool) (s v : Slice V) : Option (List Nat) → Ax (Slice V)
  | none => insertVoid s [] (newWithRoute s.route .nonQuadratic)
  | some is => insertVoid s is (if unknown then newWithRoute v.route .nonQuadratic else v)

/-- execute.rs:690-721 for conditions that are known in every iteration. -/
def loopKnown (cond : ASt → Ax (Option Bool)) (body : ASt → Ax ASt) : Nat → ASt → Ax ASt
  | 0, _ => .error .outOfFuel
  | fuel + 1, st =>
    match cond st with
    | .error e => .error e
    | .ok none => .error .unknownLoop
    | .ok (some false) => .ok st
    | .ok (some true) =>
      match body st with
      | .error e => .error e
      | .ok st' => loopKnown cond body fuel st'

/-- The value of a condition: execute.rs:2641-2644. -/
def condition (strict : Bool) (field : Int) (c : AExp) (st : ASt) : Ax (Option Bool) :=
  match eval strict field st.env c with
  | .error e => .error e
  | .ok cs =>
    match singles cs with
    | .ok [v] => .ok (getBool v field)
    | _ => .error .panic

/-- A block of statements: execute.rs:723-731, the variables of the block disappear. -/
def inBlock (body : ASt → Ax ASt) (st : ASt) : Ax ASt :=
  match body { st with env := [] :: st.env } with
  | .error e => .error e
  | .ok st' => .ok { st' with env := st'.env.tail }

/-- execute.rs:234-795, `execute_statement`. An undeclared variable holds the default expression
(`NonQuadratic`) in all cells; the parser adds an assignment of zeros after each declaration. For
`<==` an unknown position is refused before execution (unknown_known_analysis.rs:190-217); the
dimensions of the value must be those of the target (assignment_utils.rs:208-221; with fewer
dimensions the code builds names of signals that do not exist, reachable only for single unknown
cells, which are refused). With an unknown condition both branches are executed one after the
other (2654-2690). -/
def exec (strict : Bool) (fuel : Nat) (field : Int) : AStmt → ASt → Ax ASt
  | .skip, st => .ok st
  | .decl x ds, st =>
    match eval strict field st.env ds with
    | .error e => .error e
    | .ok vs =>
      match singles vs with
      | .error e => .error e
      | .ok ns =>
        if ns.any fun v => (match v with | .number _ => false | _ => true) then .error .unknownSize
        else match ns.mapM getUsize with
          | none => .error .sizeTooBig
          | some dims =>
            match envAdd st.env x (newWithRoute dims .nonQuadratic) with
            | none => .error .panic
            | some env => .ok { st with env := env }
  | .assign x is e, st =>
    match eval strict field st.env is with
    | .error e => .error e
    | .ok js =>
      match singles js with
      | .error e => .error e
      | .ok vs =>
        match position vs with
        | .error e => .error e
        | .ok pos =>
          match eval strict field st.env e with
          | .error e => .error e
          | .ok rs =>
            match getOne rs with
            | .error e => .error e
            | .ok r =>
              match envGet st.env x with
              | none => .error .panic
              | some s =>
                match writeAt st.unknown s r pos with
                | .error e => .error e
                | .ok s' =>
                  match envSet st.env x s' with
                  | none => .error .panic
                  | some env => .ok { st with env := env }
  | .cassign s dims is e, st =>
    match eval strict field st.env is with
    | .error e => .error e
    | .ok js =>
      match singles js with
      | .error e => .error e
      | .ok vs =>
        match position vs with
        | .error e => .error e
        | .ok none => .error .unknownTarget
        | .ok (some pos) =>
          match eval strict field st.env e with
          | .error e => .error e
          | .ok rs =>
            match getOne rs with
            | .error e => .error e
            | .ok r =>
              match access (signalSlice s dims) pos with
              | .error e => .error e
              | .ok l =>
                match checkCorrectDims l [] r true with
                | .error e => .error (.mem e)
                | .ok () =>
                  if st.unknown then .error .constraintInUnknown
                  else if r.route ≠ l.route then
                    .error (if r.values.any (· = .nonQuadratic) then .nonQuadratic else .panic)
                  else match equalities field l.values r.values with
                    | .error e => .error e
                    | .ok ks => .ok { st with cons := st.cons ++ ks }
  | .check l r, st =>
    if st.unknown then .error .constraintInUnknown
    else match eval strict field st.env l with
      | .error e => .error e
      | .ok ls =>
        match eval strict field st.env r with
        | .error e => .error e
        | .ok rs =>
          match getOne ls, getOne rs with
          | .ok l, .ok r =>
            match checkCorrectDims l [] r true with
            | .error e => .error (.mem e)
            | .ok () =>
              match equalities field l.values r.values with
              | .error e => .error e
              | .ok ks => .ok { st with cons := st.cons ++ ks }
          | _, _ => .error .panic
  | .seq a b, st =>
    match exec strict fuel field a st with
    | .error e => .error e
    | .ok st1 => exec strict fuel field b st1
  | .ite c t e, st =>
    match condition strict field c st with
    | .error e => .error e
    | .ok (some true) => inBlock (exec strict fuel field t) st
    | .ok (some false) => inBlock (exec strict fuel field e) st
    | .ok none =>
      match inBlock (exec strict fuel field t) { st with unknown := true } with
      | .error e => .error e
      | .ok st1 =>
        match inBlock (exec strict fuel field e) st1 with
        | .error e => .error e
        | .ok st2 => .ok { st2 with unknown := st.unknown }
  | .loop c b, st => loopKnown (condition strict field c) (inBlock (exec strict fuel field b)) fuel st
  | .block b, st => inBlock (exec strict fuel field b) st

/-- The state at the start of a body. -/
def start : ASt := ⟨[[]], false, []⟩

/-! ### Specification: concrete execution

What the program means for given values `w` of all signals: every cell is a field element, every
index and every branch is decided. Array positions are those of row-major arrays (`Verif.Memory`,
C40-C42, C61); an assignment of an array of another size changes the common positions only (the warning of
execute.rs:3953-3960). An error is a run that fails or does not end within the given number of iterations. -/

/-- An index given by a field element. -/
def cPosition (vs : List Int) : Ax (List Nat) :=
  match vs.mapM toUsize with
  | none => .error (.mem .outOfBounds)
  | some is => .ok is

def cSignals (w : Nat → Int) (s : Nat) (dims : List Nat) : Slice Int :=
  ⟨dims, (List.range dims.prod).map fun i => w (s + i)⟩

abbrev CEnv := List (List (Nat × Slice Int))

def cEval (field : Int) (w : Nat → Int) (env : CEnv) : AExp → Ax (List (Slice Int))
  | .num v => .ok [⟨[], [v]⟩]
  | .sig s dims is =>
    match cEval field w env is with
    | .error e => .error e
    | .ok js =>
      match singles js with
      | .error e => .error e
      | .ok vs =>
        match cPosition vs with
        | .error e => .error e
        | .ok pos => (access (cSignals w s dims) pos).map ([·])
  | .var x is =>
    match cEval field w env is with
    | .error e => .error e
    | .ok js =>
      match singles js with
      | .error e => .error e
      | .ok vs =>
        match cPosition vs with
        | .error e => .error e
        | .ok pos =>
          match envGet env x with
          | none => .error .panic
          | some s => (access s pos).map ([·])
  | .bin o l r =>
    match cEval field w env l with
    | .error e => .error e
    | .ok ls =>
      match cEval field w env r with
      | .error e => .error e
      | .ok rs =>
        match singles ls, singles rs with
        | .ok [a], .ok [b] =>
          match cOp o a b field with
          | none => .error .panic
          | some v => .ok [⟨[], [v]⟩]
        | _, _ => .error .panic
  | .un o e =>
    match cEval field w env e with
    | .error e => .error e
    | .ok es =>
      match singles es with
      | .ok [a] => .ok [⟨[], [cUOp o a field]⟩]
      | _ => .error .panic
  | .sw c a b =>
    match cEval field w env c with
    | .error e => .error e
    | .ok cs =>
      match singles cs with
      | .ok [v] => if asBool v field then onlyOne (cEval field w env a) else onlyOne (cEval field w env b)
      | _ => .error .panic
  | .arr es =>
    match cEval field w env es with
    | .error e => .error e
    | .ok vs => (inlineArray 0 vs).map ([·])
  | .uni v n =>
    match cEval field w env n with
    | .error e => .error e
    | .ok ns =>
      match singles ns with
      | .ok [k] =>
        match toUsize k with
        | none => .error .panic
        | some k =>
          match cEval field w env v with
          | .error e => .error e
          | .ok vs =>
            match getOne vs with
            | .error e => .error e
            | .ok s => (uniformArray 0 k s).map ([·])
      | _ => .error .panic
  | .nil => .ok []
  | .cons e es =>
    match cEval field w env e with
    | .error e => .error e
    | .ok vs =>
      match getOne vs with
      | .error e => .error e
      | .ok s => (cEval field w env es).map (s :: ·)

def cCondition (field : Int) (w : Nat → Int) (c : AExp) (env : CEnv) : Ax Bool :=
  match cEval field w env c with
  | .error e => .error e
  | .ok cs =>
    match singles cs with
    | .ok [v] => .ok (asBool v field)
    | _ => .error .panic

def cBlock (body : CEnv → Ax (CEnv × List (Int × Int))) (env : CEnv) : Ax (CEnv × List (Int × Int)) :=
  match body ([] :: env) with
  | .error e => .error e
  | .ok (env', tr) => .ok (env'.tail, tr)

def cLoop (cond : CEnv → Ax Bool) (body : CEnv → Ax (CEnv × List (Int × Int))) :
    Nat → CEnv → Ax (CEnv × List (Int × Int))
  | 0, _ => .error .outOfFuel
  | fuel + 1, env =>
    match cond env with
    | .error e => .error e
    | .ok false => .ok (env, [])
    | .ok true =>
      match body env with
      | .error e => .error e
      | .ok (env1, t1) => (cLoop cond body fuel env1).map fun x => (x.1, t1 ++ x.2)

/-- Concrete execution: the variables at the end and the pairs of values compared by `<==` and
`===`, cell by cell. -/
def run (fuel : Nat) (field : Int) (w : Nat → Int) : AStmt → CEnv → Ax (CEnv × List (Int × Int))
  | .skip, env => .ok (env, [])
  | .decl x ds, env =>
    match cEval field w env ds with
    | .error e => .error e
    | .ok vs =>
      match singles vs with
      | .error e => .error e
      | .ok ns =>
        match ns.mapM toUsize with
        | none => .error .sizeTooBig
        | some dims =>
          match envAdd env x (newWithRoute dims 0) with
          | none => .error .panic
          | some env => .ok (env, [])
  | .assign x is e, env =>
    match cEval field w env is with
    | .error e => .error e
    | .ok js =>
      match singles js with
      | .error e => .error e
      | .ok vs =>
        match cPosition vs with
        | .error e => .error e
        | .ok pos =>
          match cEval field w env e with
          | .error e => .error e
          | .ok rs =>
            match getOne rs with
            | .error e => .error e
            | .ok r =>
              match envGet env x with
              | none => .error .panic
              | some s =>
                match insertVoid s pos r with
                | .error e => .error e
                | .ok s' =>
                  match envSet env x s' with
                  | none => .error .panic
                  | some env => .ok (env, [])
  | .cassign s dims is e, env =>
    match cEval field w env is with
    | .error e => .error e
    | .ok js =>
      match singles js with
      | .error e => .error e
      | .ok vs =>
        match cPosition vs with
        | .error e => .error e
        | .ok pos =>
          match cEval field w env e with
          | .error e => .error e
          | .ok rs =>
            match getOne rs with
            | .error e => .error e
            | .ok r =>
              match access (cSignals w s dims) pos with
              | .error e => .error e
              | .ok l => .ok (env, l.values.zip r.values)
  | .check l r, env =>
    match cEval field w env l with
    | .error e => .error e
    | .ok ls =>
      match cEval field w env r with
      | .error e => .error e
      | .ok rs =>
        match getOne ls, getOne rs with
        | .ok l, .ok r => .ok (env, l.values.zip r.values)
        | _, _ => .error .panic
  | .seq a b, env =>
    match run fuel field w a env with
    | .error e => .error e
    | .ok (env1, t1) => (run fuel field w b env1).map fun x => (x.1, t1 ++ x.2)
  | .ite c t e, env =>
    match cCondition field w c env with
    | .error e => .error e
    | .ok true => cBlock (run fuel field w t) env
    | .ok false => cBlock (run fuel field w e) env
  | .loop c b, env => cLoop (cCondition field w c) (cBlock (run fuel field w b)) fuel env
  | .block b, env => cBlock (run fuel field w b) env

/-- Literals are field elements (reduced by the parser). -/
def AExp.Lits (p : Nat) : AExp → Prop
  | .num v => 0 ≤ v ∧ v < p
  | .sig _ _ is => is.Lits p
  | .var _ is => is.Lits p
  | .bin _ l r => l.Lits p ∧ r.Lits p
  | .un _ e => e.Lits p
  | .sw c a b => c.Lits p ∧ a.Lits p ∧ b.Lits p
  | .arr es => es.Lits p
  | .uni v n => v.Lits p ∧ n.Lits p
  | .nil => True
  | .cons e es => e.Lits p ∧ es.Lits p

def AStmt.Lits (p : Nat) : AStmt → Prop
  | .skip => True
  | .decl _ ds => ds.Lits p
  | .assign _ is e => is.Lits p ∧ e.Lits p
  | .cassign _ _ is e => is.Lits p ∧ e.Lits p
  | .check l r => l.Lits p ∧ r.Lits p
  | .seq a b => a.Lits p ∧ b.Lits p
  | .ite c t e => c.Lits p ∧ t.Lits p ∧ e.Lits p
  | .loop c b => c.Lits p ∧ b.Lits p
  | .block b => b.Lits p

end Verif.ArrExec
