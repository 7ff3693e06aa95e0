import Mathlib.Data.List.Basic

/-!
# The constants of functions and of buses

`handle_function_constants` and `handle_bus_constants`
(`type_analysis/src/decorators/constants_handler.rs`) rewrite the body of each function and of each
bus before anything is executed: they mark the variables that are given a value only where they
are declared (`statement_constant_inference`), check that the lengths of arrays are constant
(`statement_invariant_check`) and replace each constant by the expression it was initialised with
(`expand_statement`).

Positions in the source, the tags of signals and the strings of `log` are left out.  An
initialization block is kept in the shape the parser gives it
(`program_structure/src/abstract_syntax_tree/ast_shortcuts.rs:52-95` and 97-142): symbol by symbol
the declaration and its substitutions, then the substitutions of a tuple, which the removal of
tuples puts into a block (`parser/src/syntax_sugar_remover.rs:839`).
-/

set_option linter.unusedVariables false

namespace Verif.Expand

/-- `InfixOp`, `PrefixOp` and `ParallelOp` are `op`; the others are `Call`, `BusCall`,
`ArrayInLine`, `UniformArray` (`program_structure/src/abstract_syntax_tree/ast.rs:287-346`). -/
inductive Kind where
  | op (name : String)
  | call (f : String)
  | bus (f : String)
  | arr
  | uni
deriving DecidableEq, Repr

/-- `Expression` (`ast.rs:287-346`).  A variable carries the list of its accesses, `none` for an
index and `some f` for the field `f`, and in the same order the expressions of the indices.
`sugar` stands for the tuples and anonymous components, which are removed before. -/
inductive Ex where
  | num (n : Int)
  | var (x : String) (acc : List (Option String)) (idx : List Ex)
  | node (k : Kind) (es : List Ex)
  | switch (c t f : Ex)
  | sugar
deriving Repr

/-- One symbol of an initialization block: the `Declaration` (`ast.rs:222-229`) with
`is_constant`, and the expressions of its substitutions (`ast_shortcuts.rs:62-92`).  Of the type
only whether it is `Var` is kept. -/
structure Sym where
  name : String
  isVar : Bool
  dims : List Ex
  const : Bool
  subs : List Ex
deriving Repr

/-- `Statement` (`ast.rs:201-265`); `ceq` is `===`, `check` is `assert`, `under` is `_ <== e`. -/
inductive Stmt where
  | ifThen (c : Ex) (a : Stmt)
  | ifElse (c : Ex) (a b : Stmt)
  | loop (c : Ex) (s : Stmt)
  | ret (e : Ex)
  | init (syms : List Sym) (tail : List (String × Ex))
  | subst (x : String) (acc : List (Option String)) (idx : List Ex) (e : Ex)
  | under (e : Ex)
  | ceq (a b : Ex)
  | log (es : List Ex)
  | check (e : Ex)
  | block (ss : List Stmt)

/-- `VarEnvironment<VC>` (`program_structure/src/utils/environment.rs:39-50`): the blocks,
innermost first; in a block the name added last comes first. -/
abbrev Env (α : Type) := List (List (String × α))

/-- `get_variable` (`environment.rs:163-170`). -/
def Env.get {α : Type} (E : Env α) (x : String) : Option α := E.flatten.lookup x

/-- Replace the value of the first entry of `x` in a block. -/
def setIn {α : Type} (x : String) (v : α) : List (String × α) → List (String × α)
  | [] => []
  | p :: b => if p.1 = x then (x, v) :: b else p :: setIn x v b

/-- Assignment through `get_mut_variable_or_break` (`environment.rs:216-223`): the innermost block
that has the name.  Without such a block it panics; callers test this with `get`. -/
def Env.set {α : Type} : Env α → String → α → Env α
  | [], _, _ => []
  | b :: E, x, v => if (b.lookup x).isSome then setIn x v b :: E else b :: Env.set E x v

/-- `add_variable` (`environment.rs:154-158`). -/
def Env.add {α : Type} : Env α → String → α → Env α
  | [], _, _ => []
  | b :: E, x, v => ((x, v) :: b) :: E

/-- `add_variable_block` (`environment.rs:147-149`). -/
def Env.push {α : Type} (E : Env α) : Env α := [] :: E

/-- `remove_variable_block` (`environment.rs:150-153`). -/
def Env.pop {α : Type} (E : Env α) : Env α := E.tail

mutual
/-- `has_constant_value` (`constants_handler.rs:232-294`); `none` is a panic.  Accesses are not
looked at. -/
def hasConst (E : Env Bool) : Ex → Option Bool
  | .num _ => some true
  | .var x _ _ => E.get x
  | .node .arr _ => some false
  | .node .uni _ => some false
  | .node _ es => hasConstAll E es
  | .switch c t f => do
      if ← hasConst E c then
        if ← hasConst E t then hasConst E f else pure false
      else pure false
  | .sugar => none
/-- `call` (`constants_handler.rs:254-262`): it stops at the first argument that is not constant.
`infix_op` (284-286) does the same. -/
def hasConstAll (E : Env Bool) : List Ex → Option Bool
  | [] => some true
  | e :: es => do if ← hasConst E e then hasConstAll E es else pure false
end

/-- The tag a declaration gets at first (`constants_handler.rs:85-104`). -/
def Sym.tag (s : Sym) : Bool := s.dims.isEmpty && !s.subs.isEmpty && s.isVar

/-- `initialization_block_constant_inference` (`constants_handler.rs:85-104`). -/
def addSyms (E : Env Bool) (syms : List Sym) : Env Bool :=
  syms.foldl (fun E s => E.add s.name s.tag) E

/-- The substitutions of one symbol in the first loop of `apply_inference`
(`constants_handler.rs:123-130`). -/
def applySubs (x : String) : List Ex → Env Bool → Option (Env Bool)
  | [], E => some E
  | e :: es, E => do
      let was ← E.get x
      let remains ← hasConst E e
      applySubs x es (E.set x (was && remains))

/-- The first loop of `apply_inference` (`constants_handler.rs:123-130`). -/
def applySyms : List Sym → Env Bool → Option (Env Bool)
  | [], E => some E
  | s :: ss, E => do applySyms ss (← applySubs s.name s.subs E)

/-- The second loop of `apply_inference` (`constants_handler.rs:131-136`). -/
def flagSyms (E : Env Bool) : List Sym → Option (List Sym)
  | [] => some []
  | s :: ss => do
      let c ← E.get s.name
      let rest ← flagSyms E ss
      pure ({ s with const := c } :: rest)

/-- The second loop of `block_constant_inference` (`constants_handler.rs:145-149`) with
`apply_inference` (121-137). -/
def applyAll : List Stmt → Env Bool → Option (List Stmt × Env Bool)
  | [], E => some ([], E)
  | .init syms tail :: ss, E => do
      let E1 ← applySyms syms E
      let syms' ← flagSyms E1 syms
      let (rest, E2) ← applyAll ss E1
      pure (.init syms' tail :: rest, E2)
  | s :: ss, E => do
      let (rest, E2) ← applyAll ss E
      pure (s :: rest, E2)

mutual
/-- `statement_constant_inference` (`constants_handler.rs:61-75`) and the functions it calls
(81-151). -/
def infer : Stmt → Env Bool → Option (Stmt × Env Bool)
  | .ifThen c a, E => do
      let (a', E1) ← infer a E
      pure (.ifThen c a', E1)
  | .ifElse c a b, E => do
      let (a', E1) ← infer a E
      let (b', E2) ← infer b E1
      pure (.ifElse c a' b', E2)
  | .loop c s, E => do
      let (s', E1) ← infer s E
      pure (.loop c s', E1)
  | .subst x acc idx e, E => do
      let _ ← E.get x
      pure (.subst x acc idx e, E.set x false)
  | .init syms tail, E => some (.init syms tail, addSyms E syms)
  | .block ss, E => do
      let (ss1, E1) ← inferAll ss E.push
      let (ss2, E2) ← applyAll ss1 E1
      pure (.block ss2, E2.pop)
  | s, E => some (s, E)
/-- The first loop of `block_constant_inference` (`constants_handler.rs:142-144`). -/
def inferAll : List Stmt → Env Bool → Option (List Stmt × Env Bool)
  | [], E => some ([], E)
  | s :: ss, E => do
      let (s', E1) ← infer s E
      let (ss', E2) ← inferAll ss E1
      pure (s' :: ss', E2)
end

/-- `declaration_invariant_check` (`constants_handler.rs:170-181`): the dimensions that are
reported. -/
def checkDims (E : Env Bool) : List Ex → Option (List Ex)
  | [] => some []
  | d :: ds => do
      let c ← hasConst E d
      let rest ← checkDims E ds
      pure (if c then rest else d :: rest)

/-- The first loop of `initialization_invariant_check` (`constants_handler.rs:189-194`): no
symbol of the block has been added yet. -/
def checkSyms (E : Env Bool) : List Sym → Option (List Ex)
  | [] => some []
  | s :: ss => do
      let r ← checkDims E s.dims
      let rest ← checkSyms E ss
      pure (r ++ rest)

/-- The second loop of `initialization_invariant_check` (`constants_handler.rs:195-199`). -/
def addFlags (E : Env Bool) (syms : List Sym) : Env Bool :=
  syms.foldl (fun E s => E.add s.name s.const) E

mutual
/-- `statement_invariant_check` (`constants_handler.rs:154-229`). -/
def verify : Stmt → Env Bool → Option (List Ex × Env Bool)
  | .init syms _, E => do
      let r ← checkSyms E syms
      pure (r, addFlags E syms)
  | .ifThen _ a, E => verify a E
  | .ifElse _ a b, E => do
      let (r1, E1) ← verify a E
      let (r2, E2) ← verify b E1
      pure (r1 ++ r2, E2)
  | .loop _ s, E => verify s E
  | .block ss, E => do
      let (r, E1) ← verifyAll ss E.push
      pure (r, E1.pop)
  | _, E => some ([], E)
/-- The loop of `block_invariant_check` (`constants_handler.rs:223-226`). -/
def verifyAll : List Stmt → Env Bool → Option (List Ex × Env Bool)
  | [], E => some ([], E)
  | s :: ss, E => do
      let (r1, E1) ← verify s E
      let (r2, E2) ← verifyAll ss E1
      pure (r1 ++ r2, E2)
end

mutual
/-- `expand_expression` (`constants_handler.rs:422-561`); the panic on what is removed before is
left out, as `has_constant_value` and the semantics below have it. -/
def expandEx (H : Env Ex) : Ex → Ex
  | .num n => .num n
  | .var x [] [] =>
      match H.get x with
      | some e => e
      | none => .var x [] []
  | .var x acc idx => .var x acc (expandExs H idx)
  | .node k es => .node k (expandExs H es)
  | .switch c t f => .switch (expandEx H c) (expandEx H t) (expandEx H f)
  | .sugar => .sugar
/-- `expand_expression` on the arguments of a node. -/
def expandExs (H : Env Ex) : List Ex → List Ex
  | [] => []
  | e :: es => expandEx H e :: expandExs H es
end

/-- `expand_statement` on the items of an initialization block (`constants_handler.rs:347-349`). -/
def expandSym (H : Env Ex) (s : Sym) : Sym :=
  { s with dims := expandExs H s.dims, subs := expandExs H s.subs }

/-- The last loops of `expand_initialization_block` (`constants_handler.rs:350-363`), on the
symbols already expanded. -/
def holdSyms (H : Env Ex) (syms : List Sym) : Env Ex :=
  syms.foldl (fun H s => if s.const then s.subs.foldl (fun H e => H.add s.name e) H else H) H

mutual
/-- `expand_statement` (`constants_handler.rs:297-420`). -/
def expand : Stmt → Env Ex → Stmt × Env Ex
  | .ifThen c a, H =>
      let r := expand a H
      (.ifThen (expandEx H c) r.1, r.2)
  | .ifElse c a b, H =>
      let r := expand a H
      let q := expand b r.2
      (.ifElse (expandEx H c) r.1 q.1, q.2)
  | .loop c s, H =>
      let r := expand s H
      (.loop (expandEx H c) r.1, r.2)
  | .ret e, H => (.ret (expandEx H e), H)
  | .init syms tail, H =>
      let syms' := syms.map (expandSym H)
      (.init syms' (tail.map fun p => (p.1, expandEx H p.2)), holdSyms H syms')
  | .subst x acc idx e, H => (.subst x acc (expandExs H idx) (expandEx H e), H)
  | .under e, H => (.under (expandEx H e), H)
  | .ceq a b, H => (.ceq (expandEx H a) (expandEx H b), H)
  | .log es, H => (.log (expandExs H es), H)
  | .check e, H => (.check (expandEx H e), H)
  | .block ss, H =>
      let r := expandAll ss H.push
      (.block r.1, r.2.pop)
/-- The loop of `expand_block` (`constants_handler.rs:416-418`). -/
def expandAll : List Stmt → Env Ex → List Stmt × Env Ex
  | [], H => ([], H)
  | s :: ss, H =>
      let r := expand s H
      let q := expandAll ss r.2
      (r.1 :: q.1, q.2)
end

/-- `handle_function_constants` (`constants_handler.rs:15-25`) on the parameters and the body: the
reported dimensions and the new body; `none` is a panic. -/
def handleFunction (params : List String) (body : Stmt) : Option (List Ex × Stmt) := do
  let E0 : Env Bool := params.foldl (fun E p => E.add p false) [[]]
  let (body', E) ← infer body E0
  let (reports, _) ← verify body' E
  pure (reports, (expand body' [[]]).1)

/-- `handle_bus_constants` (`constants_handler.rs:43-58`). -/
def handleBus (params : List String) (body : Stmt) : Option (List Ex × Stmt) := do
  let E0 : Env Bool := params.foldl (fun E p => E.add p true) [[]]
  let H0 : Env Ex := params.foldl (fun H p => H.add p (.var p [] [])) [[]]
  let (body', E) ← infer body E0
  let (reports, _) ← verify body' E
  pure (reports, (expand body' H0).1)

/-! ## What the bodies mean -/

/-- What can be seen of a run: the values logged, the constraints, the declared names with their
dimensions. -/
inductive Tr (V : Type) where
  | logged (vs : List V)
  | same (a b : V)
  | declared (x : String) (dims : List V)
deriving DecidableEq, Repr

/-- A computation that can fail and that leaves a trace. -/
abbrev W (V α : Type) := Option (α × List (Tr V))

/-- One computation after another. -/
def W.bind {V α β : Type} (r : W V α) (f : α → W V β) : W V β :=
  match r with
  | none => none
  | some (a, t) =>
    match f a with
    | none => none
    | some (b, u) => some (b, t ++ u)

/-- A value without a trace. -/
def W.pure {V α : Type} (a : α) : W V α := some (a, [])

/-- The values and operations of the language are arbitrary: `node` gives the value of an
operation or of a call with what the called function logs; `truth` is used by conditions; `fresh`
is the value of a declared symbol; `read` and `write` follow accesses with the values of their
indices. -/
structure Sem (V : Type) where
  num : Int → V
  node : Kind → List V → W V V
  truth : V → Option Bool
  fresh : Bool → List V → Option V
  read : V → List (Option String) → List V → Option V
  write : V → List (Option String) → List V → V → Option V
  read_nil : ∀ v, read v [] [] = some v
  write_scalar : ∀ b old v w, fresh b [] = some old → write old [] [] v = some w → w = v

/-- An option as a computation. -/
def W.of {V α : Type} (o : Option α) : W V α := o.map fun a => (a, [])

mutual
/-- `execute_expression` (`constraint_generation/src/execute.rs:953-1259`): the branch not taken
of `?:` is not executed (1227-1242). -/
def eval {V : Type} (S : Sem V) (σ : Env V) : Ex → W V V
  | .num n => W.pure (S.num n)
  | .var x acc idx =>
      W.bind (evalAll S σ idx) fun is => W.bind (W.of (σ.get x)) fun v => W.of (S.read v acc is)
  | .node k es => W.bind (evalAll S σ es) fun vs => S.node k vs
  | .switch c t f =>
      W.bind (eval S σ c) fun v => W.bind (W.of (S.truth v)) fun b =>
        if b then eval S σ t else eval S σ f
  | .sugar => none
/-- Expressions from left to right. -/
def evalAll {V : Type} (S : Sem V) (σ : Env V) : List Ex → W V (List V)
  | [] => W.pure []
  | e :: es => W.bind (eval S σ e) fun v => W.bind (evalAll S σ es) fun vs => W.pure (v :: vs)
end

/-- Give a value to the whole of a variable. -/
def assign {V : Type} (S : Sem V) (σ : Env V) (x : String) (acc : List (Option String))
    (is : List V) (v : V) : W V (Env V) :=
  W.bind (W.of (σ.get x)) fun old => W.bind (W.of (S.write old acc is v)) fun w =>
    W.pure (σ.set x w)

/-- The substitutions of an initialization block, in order. -/
def runSubs {V : Type} (S : Sem V) : List (String × Ex) → Env V → W V (Env V)
  | [], σ => W.pure σ
  | p :: ps, σ =>
      W.bind (eval S σ p.2) fun v => W.bind (assign S σ p.1 [] [] v) fun σ1 => runSubs S ps σ1

/-- The symbols of an initialization block (`execute.rs:247-257` and 258-330): each is declared
with its dimensions and then given its values. -/
def runSyms {V : Type} (S : Sem V) : List Sym → Env V → W V (Env V)
  | [], σ => W.pure σ
  | s :: ss, σ =>
      W.bind (evalAll S σ s.dims) fun ds => W.bind (some ((), [.declared s.name ds])) fun _ =>
        W.bind (W.of (S.fresh s.isVar ds)) fun v =>
          W.bind (runSubs S (s.subs.map fun e => (s.name, e)) (σ.add s.name v)) fun σ1 =>
            runSyms S ss σ1

/-- A loop, at most so many times. -/
def iter {V : Type} (test : Env V → W V Bool) (body : Env V → W V (Env V × Option V)) :
    Nat → Env V → W V (Env V × Option V)
  | 0, _ => none
  | n + 1, σ =>
      W.bind (test σ) fun b =>
        if b then
          W.bind (body σ) fun r =>
            match r.2 with
            | some v => W.pure (r.1, some v)
            | none => iter test body n r.1
        else W.pure (σ, none)

/-- The value of a condition. -/
def cond {V : Type} (S : Sem V) (c : Ex) (σ : Env V) : W V Bool :=
  W.bind (eval S σ c) fun v => W.of (S.truth v)

mutual
/-- `execute_statement` (`execute.rs:231-800`) on the statements of functions: the memory after,
and the value when the statement returns.  Loops run at most `n` times.  A block has its own
variables (722-729). -/
def run {V : Type} (S : Sem V) (n : Nat) : Stmt → Env V → W V (Env V × Option V)
  | .ifThen c a, σ =>
      W.bind (cond S c σ) fun b => if b then run S n a σ else W.pure (σ, none)
  | .ifElse c a b, σ =>
      W.bind (cond S c σ) fun t => if t then run S n a σ else run S n b σ
  | .loop c s, σ => iter (cond S c) (run S n s) n σ
  | .ret e, σ => W.bind (eval S σ e) fun v => W.pure (σ, some v)
  | .init syms tail, σ =>
      W.bind (runSyms S syms σ) fun σ1 => W.bind (runSubs S tail σ1) fun σ2 => W.pure (σ2, none)
  | .subst x acc idx e, σ =>
      W.bind (eval S σ e) fun v => W.bind (evalAll S σ idx) fun is =>
        W.bind (assign S σ x acc is v) fun σ1 => W.pure (σ1, none)
  | .under e, σ => W.bind (eval S σ e) fun _ => W.pure (σ, none)
  | .ceq a b, σ =>
      W.bind (eval S σ a) fun v => W.bind (eval S σ b) fun w => some ((σ, none), [.same v w])
  | .log es, σ => W.bind (evalAll S σ es) fun vs => some ((σ, none), [.logged vs])
  | .check e, σ => W.bind (cond S e σ) fun b => if b then W.pure (σ, none) else none
  | .block ss, σ => W.bind (runAll S n ss σ.push) fun r => W.pure (r.1.pop, r.2)
/-- `execute_sequence_of_statements` (`execute.rs`): until a statement returns. -/
def runAll {V : Type} (S : Sem V) (n : Nat) : List Stmt → Env V → W V (Env V × Option V)
  | [], σ => W.pure (σ, none)
  | s :: ss, σ =>
      W.bind (run S n s σ) fun r =>
        match r.2 with
        | some v => W.pure (r.1, some v)
        | none => runAll S n ss r.1
end

/-- Run a body with these arguments: the value returned, and the trace. -/
def call {V : Type} (S : Sem V) (n : Nat) (params : List String) (body : Stmt) (args : List V) :
    W V (Option V) :=
  W.bind (run S n body [(params.zip args).reverse]) fun r => W.pure r.2

end Verif.Expand
