import Verif.Algebra

/-!
Model of the symbolic execution of template and function bodies,
`constraint_generation/src/execute.rs`, with `assignment_utils.rs` (assignment states of signals) and
`program_structure/src/utils/environment.rs` (variable blocks).

Fragment: scalar variables and signals, all infix and prefix operators, the inline conditional,
declarations, variable assignment, `<--`, `<==`, `===`, `if`, `while`, blocks, `return`. Left out:
arrays (see `Verif.ArrExec`), tags,
components, buses, calls, `log`, `assert`, the record of reached statements. Identifiers are numbers;
signal 0 plays the part of the empty name, which is the constant key of the linear forms.
Sequences of statements are binary (`seq`).
-/

namespace Verif.Exec

open Verif.ModArith Verif.Algebra

/-- ast.rs, `ExpressionInfixOpcode`. -/
inductive Op where
  | mul | div | add | sub | pow | intDiv | mod | shiftL | shiftR
  | lesserEq | greaterEq | lesser | greater | eq | notEq
  | boolOr | boolAnd | bitOr | bitAnd | bitXor
  deriving DecidableEq, Repr

/-- ast.rs, `ExpressionPrefixOpcode`. -/
inductive UOp where
  | boolNot | sub | complement
  deriving DecidableEq, Repr

/-- ast.rs, `Expression` (the scalar part). -/
inductive Expr where
  | num (v : Int)
  | var (x : Nat)
  | sig (s : Nat)
  | bin (op : Op) (l r : Expr)
  | un (op : UOp) (e : Expr)
  | ite (c a b : Expr)
  deriving DecidableEq, Repr

/-- ast.rs, `Statement` (the part modelled). `decl` is a `Declaration` of a variable, `assign` a
`Substitution` with `=`, `sassign` with `<--`, `cassign` with `<==`, `check` a
`ConstraintEquality`. -/
inductive Stmt where
  | skip
  | decl (x : Nat)
  | assign (x : Nat) (e : Expr)
  | sassign (s : Nat) (e : Expr)
  | cassign (s : Nat) (e : Expr)
  | check (l r : Expr)
  | seq (a b : Stmt)
  | ifte (c : Expr) (t : Stmt) (e : Option Stmt)
  | while (c : Expr) (b : Stmt)
  | block (b : Stmt)
  | ret (e : Expr)
  deriving Repr

/-- Ways the execution ends early: errors reported to the user and aborts of the compiler. -/
inductive Err where
  | arith (e : Fail)
  | multipleAssignments
  | notInitialized
  | constraintInUnknown
  | nonQuadratic
  | panic
  | outOfFuel
  deriving DecidableEq, Repr

/-- Symbolic values (`AExpr`, execute.rs:35). -/
abbrev V := AExpr Nat

/-- slice_types.rs:38-46, `AssignmentState`, without source locations. -/
inductive AState where
  | noAssigned
  | mightAssigned (conds : List (Nat × Bool))
  | assigned
  deriving DecidableEq, Repr

/-- execute.rs:45-58, `RuntimeInformation` (the part used), with the variable blocks of the
environment (innermost first) and the constraints of the template.

`log`, `loopInUnknown` and `unstable` are not part of the compiler: they only record what happened
(the signal assignments with the conditions pending at that time; whether a loop was started inside a
branch of an unknown condition; whether some loop with an unknown condition would have changed the
state in a third pass) and are never read by the execution. -/
structure St where
  env : List (List (Nat × V))
  unknown : Bool
  conds : List (Nat × Bool)
  counter : Nat
  sigs : Nat → AState
  cons : List (Constraint Nat)
  log : List (Nat × List (Nat × Bool))
  loopInUnknown : Bool
  unstable : Bool

/-- Result of a computation of the executor. -/
abbrev Ex (α : Type) := Except Err α

/-! ### Variable blocks (environment.rs) -/

/-- environment.rs:616-622, lookup in one block (`VariableBlock::contains_variable`,
`get_variable`). -/
def blockGet {β : Type} : List (Nat × β) → Nat → Option β
  | [], _ => none
  | (y, v) :: rest, x => if y = x then some v else blockGet rest x

/-- environment.rs:116-125 and 156-163, `block_with_variable_symbol`, `get_variable`: the innermost
block that contains the variable. -/
def envGet {β : Type} : List (List (Nat × β)) → Nat → Option β
  | [], _ => none
  | b :: bs, x =>
    match blockGet b x with
    | some v => some v
    | none => envGet bs x

/-- environment.rs:623-626, modification in one block. -/
def blockSet {β : Type} : List (Nat × β) → Nat → β → Option (List (Nat × β))
  | [], _, _ => none
  | (y, w) :: rest, x, v =>
    if y = x then some ((y, v) :: rest) else (blockSet rest x v).map ((y, w) :: ·)

/-- environment.rs:126-136 and 196-206, `mut_block_with_variable_symbol`, `get_mut_variable_mut`
followed by an assignment. -/
def envSet {β : Type} : List (List (Nat × β)) → Nat → β → Option (List (List (Nat × β)))
  | [], _, _ => none
  | b :: bs, x, v =>
    match blockSet b x v with
    | some b' => some (b' :: bs)
    | none => (envSet bs x v).map (b :: ·)

/-- environment.rs:147-151, `add_variable`: into the innermost block; a new entry hides an earlier
one of the same block as the insertion into the hash map replaces it. Aborts without blocks. -/
def envAdd {β : Type} : List (List (Nat × β)) → Nat → β → Option (List (List (Nat × β)))
  | [], _, _ => none
  | b :: bs, x, v => some (((x, v) :: b) :: bs)

/-! ### Expressions -/

/-- execute.rs:3636-3673, `execute_infix_op`. -/
def applyOp (op : Op) (l r : V) (field : Int) : Res V :=
  match op with
  | .mul => .ok (Algebra.mul l r field)
  | .div => Algebra.div l r field
  | .add => Algebra.add l r field
  | .sub => Algebra.sub l r field
  | .pow => Algebra.pow l r field
  | .intDiv => numOpR ModArith.idiv l r field
  | .mod => numOpR ModArith.modOp l r field
  | .shiftL => numOpR ModArith.shiftL l r field
  | .shiftR => numOpR ModArith.shiftR l r field
  | .lesserEq => .ok (numOp ModArith.lesserEq l r field)
  | .greaterEq => .ok (numOp ModArith.greaterEq l r field)
  | .lesser => .ok (numOp ModArith.lesser l r field)
  | .greater => .ok (numOp ModArith.greater l r field)
  | .eq => .ok (numOp ModArith.eq l r field)
  | .notEq => .ok (numOp ModArith.notEq l r field)
  | .boolOr => .ok (numOp ModArith.boolOr l r field)
  | .boolAnd => .ok (numOp ModArith.boolAnd l r field)
  | .bitOr => .ok (numOp ModArith.bitOr l r field)
  | .bitAnd => .ok (numOp ModArith.bitAnd l r field)
  | .bitXor => .ok (numOp ModArith.bitXor l r field)

/-- execute.rs:3675-3688, `execute_prefix_op`. -/
def applyUOp (op : UOp) (e : V) (field : Int) : V :=
  match op with
  | .boolNot => numOp1 ModArith.not e field
  | .sub => prefixSub e field
  | .complement => numOp1 ModArith.complement e field

/-- execute.rs:953-1271, `execute_expression`. Reading a signal that has not been assigned on any
path is refused (execute.rs:2969-2992); reading an undeclared variable aborts. -/
def eval (field : Int) (sigs : Nat → AState) (env : List (List (Nat × V))) : Expr → Ex V
  | .num v => .ok (.number v)
  | .var x =>
    match envGet env x with
    | some v => .ok v
    | none => .error .panic
  | .sig s =>
    match sigs s with
    | .noAssigned => .error .notInitialized
    | _ => .ok (.signal s)
  | .bin op l r =>
    match eval field sigs env l with
    | .error e => .error e
    | .ok vl =>
      match eval field sigs env r with
      | .error e => .error e
      | .ok vr =>
        match applyOp op vl vr field with
        | .error e => .error (.arith e)
        | .ok v => .ok v
  | .un op e =>
    match eval field sigs env e with
    | .error e => .error e
    | .ok v => .ok (applyUOp op v field)
  | .ite c a b =>
    match eval field sigs env c with
    | .error e => .error e
    | .ok vc =>
      match getBool vc field with
      | some true => eval field sigs env a
      | some false => eval field sigs env b
      | none => .ok .nonQuadratic

/-! ### Assignment of signals (assignment_utils.rs) -/

/-- assignment_utils.rs:266-281, the comparison of two condition lists up to the shorter length:
position of the first difference and the two entries there. -/
def firstDiff : List (Nat × Bool) → List (Nat × Bool) → Option (Nat × (Nat × Bool) × (Nat × Bool))
  | a :: as, b :: bs =>
    if a = b then (firstDiff as bs).map fun x => (x.1 + 1, x.2) else some (0, a, b)
  | _, _ => none

/-- assignment_utils.rs:231-309, the treatment of one cell in `perform_signal_assignment`: the new
state of a cell with state `old` under an assignment with state `new`. -/
def assignCell (old new : AState) : Ex AState :=
  match old with
  | .noAssigned => .ok new
  | .assigned => .error .multipleAssignments
  | .mightAssigned condOld =>
    match new with
    | .assigned => .error .multipleAssignments
    | .noAssigned => .error .panic
    | .mightAssigned condNew =>
      match firstDiff condOld condNew with
      | none => .error .multipleAssignments
      | some (i, a, b) =>
        if a.1 = b.1 then
          if i = min condOld.length condNew.length - 1 ∧ condOld.length = condNew.length then
            if condNew.length = 1 then .ok .assigned
            else .ok (.mightAssigned (condNew.take (min condOld.length condNew.length - 1)))
          else .ok (.mightAssigned condNew)
        else .error .multipleAssignments

/-- execute.rs:1563-1567, the state given to an assignment. -/
def pendingState (conds : List (Nat × Bool)) : AState :=
  if conds.isEmpty then .assigned else .mightAssigned conds

/-- execute.rs:1698-1750, assignment of a signal (`<--`), without the tags. -/
def assignSignal (s : Nat) (st : St) : Ex St :=
  match assignCell (st.sigs s) (pendingState st.conds) with
  | .error e => .error e
  | .ok a => .ok { st with
      sigs := fun t => if t = s then a else st.sigs t
      log := st.log ++ [(s, st.conds)] }

/-- execute.rs:435-465 and 632-660: the constraint for an equality of two values. -/
def addEquality (l r : V) (field : Int) (st : St) : Ex St :=
  match Algebra.sub l r field with
  | .error e => .error (.arith e)
  | .ok d =>
    match toConstraint d field with
    | none => .error .nonQuadratic
    | some k => .ok { st with cons := st.cons ++ [k] }

/-! ### Statements -/

/-- execute.rs:2654-2665: entering the first branch of an unknown condition. -/
def enter (st : St) : St :=
  { st with
    unknown := true
    conds := st.conds ++ [(st.counter, true)]
    counter := st.counter + 1 }

/-- execute.rs:2669-2671: going over to the second branch, `last` being the last condition. -/
def flip (last : Nat × Bool) (st : St) : St :=
  { st with conds := st.conds.dropLast ++ [(last.1, false)] }

/-- execute.rs:2699-2701: the end of a conditional with an unknown condition started in `old`. -/
def leave (old st : St) : St :=
  { st with unknown := old.unknown, conds := st.conds.dropLast }

/-- execute.rs:2630-2703, `execute_conditional_statement`, for the given executions of the two
branches. Returns the state, the returned value and the value of the condition if known. Setting the
flag of the last condition aborts if the stack is empty. -/
def conditional (field : Int) (c : Expr) (t : St → Ex (St × Option V))
    (e : Option (St → Ex (St × Option V))) (st : St) : Ex (St × Option V × Option Bool) :=
  match eval field st.sigs st.env c with
  | .error er => .error er
  | .ok vc =>
    match getBool vc field with
    | some true =>
      match t st with
      | .error er => .error er
      | .ok (st', r) => .ok (st', r, some true)
    | some false =>
      match e with
      | none => .ok (st, none, some false)
      | some f =>
        match f st with
        | .error er => .error er
        | .ok (st', r) => .ok (st', r, some false)
    | none =>
      match t (enter st) with
      | .error er => .error er
      | .ok (st1, r1) =>
        match e with
        | none => .ok (leave st st1, r1, none)
        | some f =>
          match st1.conds.getLast? with
          | none => .error .panic
          | some last =>
            match f (flip last st1) with
            | .error er => .error er
            | .ok (st2, r2) => .ok (leave st st2, r1.or r2, none)

/-- Not in the compiler: sets the record `unstable` if another pass over the loop would change a
variable, assign a signal, return or fail. -/
def markUnstable (third : St → Ex (St × Option V × Option Bool)) (st : St) : St :=
  match third st with
  | .ok (st3, none, _) => { st with
      loopInUnknown := st.loopInUnknown || st3.loopInUnknown
      unstable := st.unstable || st3.unstable || decide (st3.env ≠ st.env) || decide (st3.log ≠ st.log) }
  | _ => { st with unstable := true }

/-- execute.rs:687-689: the start of a `while` statement. -/
def startLoop (st : St) : St :=
  { st with
    conds := st.conds ++ [(st.counter, true)]
    counter := st.counter + 1
    loopInUnknown := st.loopInUnknown || st.unknown }

/-- execute.rs:719-720: the end of an iteration with a known condition. -/
def endIteration (st : St) : St := { st with conds := st.conds.dropLast }

/-- execute.rs:690-721, the `loop` of a `while` statement. The first argument bounds the number of
iterations. -/
def whileLoop (step : St → Ex (St × Option V × Option Bool)) : Nat → St → Ex (St × Option V)
  | 0, _ => .error .outOfFuel
  | fuel + 1, st =>
    match step st with
    | .error e => .error e
    | .ok (st1, some v, _) => .ok (st1, some v)
    | .ok (st1, none, none) =>
      match step st1 with
      | .error e => .error e
      | .ok (st2, some v, _) => .ok (st2, some v)
      | .ok (st2, none, _) => .ok (markUnstable step st2, none)
    | .ok (st1, none, some false) => .ok (st1, none)
    | .ok (st1, none, some true) => whileLoop step fuel (endIteration st1)

/-- execute.rs:234-795, `execute_statement`, and 2705-2728, `execute_sequence_of_statements`. The
first argument bounds the iterations of each loop. A declared variable holds the default expression
(`NonQuadratic`, algebra.rs:83-87) until assigned. -/
def exec (fuel : Nat) (field : Int) : Stmt → St → Ex (St × Option V)
  | .skip, st => .ok (st, none)
  | .decl x, st =>
    match envAdd st.env x .nonQuadratic with
    | none => .error .panic
    | some env => .ok ({ st with env := env }, none)
  | .assign x e, st =>
    match eval field st.sigs st.env e with
    | .error er => .error er
    | .ok v =>
      match envSet st.env x (if st.unknown then .nonQuadratic else v) with
      | none => .error .panic
      | some env => .ok ({ st with env := env }, none)
  | .sassign s e, st =>
    match eval field st.sigs st.env e with
    | .error er => .error er
    | .ok _ =>
      match assignSignal s st with
      | .error er => .error er
      | .ok st' => .ok (st', none)
  | .cassign s e, st =>
    match eval field st.sigs st.env e with
    | .error er => .error er
    | .ok v =>
      match assignSignal s st with
      | .error er => .error er
      | .ok st1 =>
        if st.unknown then .error .constraintInUnknown
        else if v = .nonQuadratic then .error .nonQuadratic
        else match addEquality (.signal s) v field st1 with
          | .error er => .error er
          | .ok st2 => .ok (st2, none)
  | .check l r, st =>
    if st.unknown then .error .constraintInUnknown
    else match eval field st.sigs st.env l with
      | .error er => .error er
      | .ok vl =>
        match eval field st.sigs st.env r with
        | .error er => .error er
        | .ok vr =>
          match addEquality vl vr field st with
          | .error er => .error er
          | .ok st' => .ok (st', none)
  | .seq a b, st =>
    match exec fuel field a st with
    | .error er => .error er
    | .ok (st1, some v) => .ok (st1, some v)
    | .ok (st1, none) => exec fuel field b st1
  | .ifte c t none, st =>
    match conditional field c (exec fuel field t) none st with
    | .error er => .error er
    | .ok (st', r, _) => .ok (st', r)
  | .ifte c t (some e), st =>
    match conditional field c (exec fuel field t) (some (exec fuel field e)) st with
    | .error er => .error er
    | .ok (st', r, _) => .ok (st', r)
  | .while c b, st =>
    whileLoop (conditional field c (exec fuel field b) none) fuel (startLoop st)
  | .block b, st =>
    match exec fuel field b { st with env := [] :: st.env } with
    | .error er => .error er
    | .ok (st', r) => .ok ({ st' with env := st'.env.tail }, r)
  | .ret e, st =>
    match eval field st.sigs st.env e with
    | .error er => .error er
    | .ok v => .ok (st, some (if st.unknown then .nonQuadratic else v))

/-- execute.rs:62-75: the state at the start of a body, with the given input signals assigned
(component_representation/bus inputs are created `Assigned`) and one variable block. -/
def start (inputs : List Nat) : St where
  env := [[]]
  unknown := false
  conds := []
  counter := 0
  sigs := fun s => if s ∈ inputs then .assigned else .noAssigned
  cons := []
  log := []
  loopInUnknown := false
  unstable := false

/-! ### Specification: concrete execution

What the program means for given values of all signals: every expression is computed in the field,
every branch is decided. `none` stands for a run that fails (division by zero, undeclared variable)
or does not end within the given number of iterations. -/

/-- What a concrete run did: signals assigned, and the pairs of values compared by `===` and
`<==`. -/
structure Trace where
  sigs : List Nat
  checks : List (Int × Int)
  deriving DecidableEq, Repr

def Trace.append (a b : Trace) : Trace := ⟨a.sigs ++ b.sigs, a.checks ++ b.checks⟩

def Trace.nil : Trace := ⟨[], []⟩

def optOf {α : Type} : Res α → Option α
  | .ok a => some a
  | .error _ => none

/-- The operators on field elements. -/
def cOp (op : Op) (l r : Int) (field : Int) : Option Int :=
  match op with
  | .mul => some (ModArith.mul l r field)
  | .div => optOf (ModArith.div l r field)
  | .add => some (ModArith.add l r field)
  | .sub => some (ModArith.sub l r field)
  | .pow => optOf (ModArith.pow l r field)
  | .intDiv => optOf (ModArith.idiv l r field)
  | .mod => optOf (ModArith.modOp l r field)
  | .shiftL => optOf (ModArith.shiftL l r field)
  | .shiftR => optOf (ModArith.shiftR l r field)
  | .lesserEq => some (ModArith.lesserEq l r field)
  | .greaterEq => some (ModArith.greaterEq l r field)
  | .lesser => some (ModArith.lesser l r field)
  | .greater => some (ModArith.greater l r field)
  | .eq => some (ModArith.eq l r field)
  | .notEq => some (ModArith.notEq l r field)
  | .boolOr => some (ModArith.boolOr l r field)
  | .boolAnd => some (ModArith.boolAnd l r field)
  | .bitOr => some (ModArith.bitOr l r field)
  | .bitAnd => some (ModArith.bitAnd l r field)
  | .bitXor => some (ModArith.bitXor l r field)

def cUOp (op : UOp) (e : Int) (field : Int) : Int :=
  match op with
  | .boolNot => ModArith.not e field
  | .sub => ModArith.prefixSub e field
  | .complement => ModArith.complement e field

/-- Value of an expression for signal values `w`. -/
def cEval (field : Int) (w : Nat → Int) (env : List (List (Nat × Int))) : Expr → Option Int
  | .num v => some v
  | .var x => envGet env x
  | .sig s => some (w s)
  | .bin op l r =>
    match cEval field w env l, cEval field w env r with
    | some a, some b => cOp op a b field
    | _, _ => none
  | .un op e => (cEval field w env e).map fun a => cUOp op a field
  | .ite c a b =>
    match cEval field w env c with
    | none => none
    | some v => if ModArith.asBool v field then cEval field w env a else cEval field w env b

abbrev CEnv := List (List (Nat × Int))

/-- The loop of a concrete `while`. -/
def cLoop (field : Int) (w : Nat → Int) (c : Expr) (body : CEnv → Option (CEnv × Trace × Option Int)) :
    Nat → CEnv → Option (CEnv × Trace × Option Int)
  | 0, _ => none
  | fuel + 1, env =>
    match cEval field w env c with
    | none => none
    | some v =>
      if ModArith.asBool v field then
        match body env with
        | none => none
        | some (env1, t1, some r) => some (env1, t1, some r)
        | some (env1, t1, none) =>
          (cLoop field w c body fuel env1).map fun x => (x.1, t1.append x.2.1, x.2.2)
      else some (env, .nil, none)

/-- Concrete execution of a statement. -/
def run (fuel : Nat) (field : Int) (w : Nat → Int) : Stmt → CEnv → Option (CEnv × Trace × Option Int)
  | .skip, env => some (env, .nil, none)
  | .decl x, env => (envAdd env x 0).map fun e => (e, .nil, none)
  | .assign x e, env =>
    match cEval field w env e with
    | none => none
    | some v => (envSet env x v).map fun e => (e, .nil, none)
  | .sassign s e, env => (cEval field w env e).map fun _ => (env, ⟨[s], []⟩, none)
  | .cassign s e, env => (cEval field w env e).map fun v => (env, ⟨[s], [(w s, v)]⟩, none)
  | .check l r, env =>
    match cEval field w env l, cEval field w env r with
    | some a, some b => some (env, ⟨[], [(a, b)]⟩, none)
    | _, _ => none
  | .seq a b, env =>
    match run fuel field w a env with
    | none => none
    | some (env1, t1, some r) => some (env1, t1, some r)
    | some (env1, t1, none) =>
      (run fuel field w b env1).map fun x => (x.1, t1.append x.2.1, x.2.2)
  | .ifte c t none, env =>
    match cEval field w env c with
    | none => none
    | some v => if ModArith.asBool v field then run fuel field w t env else some (env, .nil, none)
  | .ifte c t (some e), env =>
    match cEval field w env c with
    | none => none
    | some v =>
      if ModArith.asBool v field then run fuel field w t env else run fuel field w e env
  | .while c b, env => cLoop field w c (run fuel field w b) fuel env
  | .block b, env =>
    (run fuel field w b ([] :: env)).map fun x => (x.1.tail, x.2.1, x.2.2)
  | .ret e, env => (cEval field w env e).map fun v => (env, .nil, some v)

/-! ### Conditions on programs guaranteed by the parser -/

/-- Literals are field elements. -/
def Expr.Lits (p : Int) : Expr → Prop
  | .num v => 0 ≤ v ∧ v < p
  | .bin _ l r => l.Lits p ∧ r.Lits p
  | .un _ e => e.Lits p
  | .ite c a b => c.Lits p ∧ a.Lits p ∧ b.Lits p
  | _ => True

def Stmt.Lits (p : Int) : Stmt → Prop
  | .assign _ e | .sassign _ e | .cassign _ e | .ret e => e.Lits p
  | .check l r => l.Lits p ∧ r.Lits p
  | .seq a b => a.Lits p ∧ b.Lits p
  | .ifte c t none => c.Lits p ∧ t.Lits p
  | .ifte c t (some e) => c.Lits p ∧ t.Lits p ∧ e.Lits p
  | .while c b => c.Lits p ∧ b.Lits p
  | .block b => b.Lits p
  | _ => True

/-- Declarations occur only directly inside blocks (lang.lalrpop: `ParseStatement3`), never as the
body of an `if` or `while`. The argument says whether the statement stands directly in a block. -/
def Stmt.Scoped : Bool → Stmt → Prop
  | b, .decl _ => b = true
  | b, .seq x y => x.Scoped b ∧ y.Scoped b
  | _, .ifte _ t none => t.Scoped false
  | _, .ifte _ t (some e) => t.Scoped false ∧ e.Scoped false
  | _, .while _ x => x.Scoped false
  | _, .block x => x.Scoped true
  | _, _ => True

instance Expr.decLits (p : Int) : (e : Expr) → Decidable (e.Lits p)
  | .num v => inferInstanceAs (Decidable (0 ≤ v ∧ v < p))
  | .var _ => inferInstanceAs (Decidable True)
  | .sig _ => inferInstanceAs (Decidable True)
  | .bin _ l r =>
    have := Expr.decLits p l
    have := Expr.decLits p r
    inferInstanceAs (Decidable (l.Lits p ∧ r.Lits p))
  | .un _ e => Expr.decLits p e
  | .ite c a b =>
    have := Expr.decLits p c
    have := Expr.decLits p a
    have := Expr.decLits p b
    inferInstanceAs (Decidable (c.Lits p ∧ a.Lits p ∧ b.Lits p))

end Verif.Exec
