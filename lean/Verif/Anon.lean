import Verif.Exec

/-!
Model of the removal of anonymous components and tuples, `parser/src/syntax_sugar_remover.rs`, run on
every template right after parsing.

Simplifications: names are numbers (the order of the numbers stands for the alphabetical order of the
names, 0 for `_`); the names the pass invents are given by functions of the source position; the
expressions that may not contain sugar (operators, inline conditionals, calls, array and bus accesses)
are one constructor `op`; `===`, assertions, returns and logs without tuples are one constructor
`emit`; the accesses of the left side of an assignment are left out. Argument and statement lists are
chains in the same type.
-/

namespace Verif.Anon

/-- ast.rs:361-365, `AssignOp`. -/
inductive AOp where
  | var
  | sig
  | con
  deriving DecidableEq, Repr

/-- ast.rs:287-358, `Expression`. `anon` carries the source position; `out c l o` is the access `c.o` or
`c[l].o` and `succ l` the expression `l + 1`, which only the pass writes. -/
inductive SExpr where
  | nil
  | cons (e rest : SExpr)
  | num (v : Int)
  | var (x : Nat)
  | out (c : Nat) (l : Option Nat) (o : Nat)
  | succ (l : Nat)
  | op (call : Bool) (k : Nat) (args : SExpr)
  | array (es : SExpr)
  | tuple (es : SExpr)
  | anon (pos t : Nat) (params : SExpr) (names : Option (List (AOp × Nat))) (sigs : SExpr) (par : Bool)
  | par (e : SExpr)
  deriving DecidableEq, Repr

/-- ast.rs:201-285, `Statement`. `create c l t ps par` is `c[l] = (parallel) t(ps)`, `input c l i e` is
`c[l].i <== e`; `comp` is the declaration of a component, for components in loops with the counter of
the loop as dimension; `under` is `UnderscoreSubstitution`. -/
inductive SStmt where
  | nil
  | cons (s rest : SStmt)
  | decl (x : Nat) (dims : SExpr)
  | comp (c : Nat) (l : Option Nat)
  | assign (x : Nat) (op : AOp) (e : SExpr)
  | create (c : Nat) (l : Option Nat) (t : Nat) (params : SExpr) (par : Bool)
  | input (c : Nat) (l : Option Nat) (i : Nat) (e : SExpr)
  | under (op : AOp) (e : SExpr)
  | mult (l : SExpr) (op : AOp) (r : SExpr)
  | emit (args : SExpr)
  | ifThen (c : SExpr) (t : SStmt)
  | ifElse (c : SExpr) (t e : SStmt)
  | while (pos : Nat) (c : SExpr) (b : SStmt)
  | block (b : SStmt)
  | init (b : SStmt)
  deriving DecidableEq, Repr

/-- The name `_`. -/
def underscore : Nat := 0

/-- template_data.rs:9-28: the inputs and outputs in the order of declaration. -/
structure Templ where
  inputs : List Nat
  outputs : List Nat
  deriving DecidableEq, Repr

/-- Names the pass invents: syntax_sugar_remover.rs:319 for the counter of the loop at a position, 453 for
the component of the call of a template at a position. -/
structure Names where
  loop : Nat → Nat
  comp : Nat → Nat → Nat

/-- Kinds of `Report` (`anonymous_general_error`, `anonymous_inside_condition_error`,
`tuple_general_error`); `panic` for `unreachable!` and indices out of range. -/
inductive Err where
  | leftSide | operator | condition | misplaced | parameter | parallel | noTemplate | arity | noInput
  | tuple | panic
  deriving DecidableEq, Repr

/-! ### Checks -/

/-- expression_impl.rs:164-195, `contains_anonymous_comp`. -/
def hasAnon : SExpr → Bool
  | .nil | .num _ | .var _ | .out _ _ _ | .succ _ => false
  | .cons e r => hasAnon e || hasAnon r
  | .op _ _ args => hasAnon args
  | .array es | .tuple es => hasAnon es
  | .anon _ _ _ _ _ _ => true
  | .par e => hasAnon e

/-- expression_impl.rs:197-237, `contains_tuple`. -/
def hasTuple : SExpr → Bool
  | .nil | .num _ | .var _ | .out _ _ _ | .succ _ => false
  | .cons e r => hasTuple e || hasTuple r
  | .op _ _ args => hasTuple args
  | .array es => hasTuple es
  | .tuple _ => true
  | .anon _ _ ps _ ss _ => hasTuple ps || hasTuple ss
  | .par e => hasTuple e

/-- expression_impl.rs:116-122, 145-151, 71-77, `is_call`, `is_anonymous_comp`, `is_tuple`. -/
def isCall : SExpr → Bool
  | .op c _ _ => c
  | _ => false

def isAnon : SExpr → Bool
  | .anon _ _ _ _ _ _ => true
  | _ => false

def isTuple : SExpr → Bool
  | .tuple _ => true
  | _ => false

/-- syntax_sugar_remover.rs:172-275, `check_anonymous_components_expression`. -/
def checkE : SExpr → Except Err Unit
  | .nil | .num _ | .var _ | .out _ _ _ | .succ _ => .ok ()
  | .cons e r =>
    match checkE e with
    | .error x => .error x
    | .ok _ => checkE r
  | .op _ _ args => if hasAnon args then .error .misplaced else .ok ()
  | .array es | .tuple es => checkE es
  | .anon _ _ ps _ ss _ => if hasAnon ps then .error .parameter else checkE ss
  | .par e =>
    if !isCall e && !isAnon e && hasAnon e then .error .parallel
    else if isCall e && hasAnon e then .error .parameter
    else .ok ()

/-- syntax_sugar_remover.rs:55-170, `check_anonymous_components_statement`. -/
def checkS : SStmt → Except Err Unit
  | .nil | .comp _ _ | .create _ _ _ _ _ => .ok ()
  | .cons a b =>
    match checkS a with
    | .error x => .error x
    | .ok _ => checkS b
  | .decl _ dims => if hasAnon dims then .error .misplaced else .ok ()
  | .assign _ op e =>
    if hasAnon e && decide (op = .sig) then .error .operator else checkE e
  | .input _ _ _ e => checkE e
  | .under _ _ => .error .panic
  | .mult l op r =>
    if hasAnon l then .error .leftSide
    else if hasAnon r && decide (op = .sig) then .error .operator
    else checkE r
  | .emit args => if hasAnon args then .error .misplaced else .ok ()
  | .ifThen c t => if hasAnon c then .error .condition else checkS t
  | .ifElse c t e =>
    if hasAnon c then .error .condition
    else match checkS t with
      | .error x => .error x
      | .ok _ => checkS e
  | .while _ c b => if hasAnon c then .error .condition else checkS b
  | .block b | .init b => checkS b

/-! ### Removal of anonymous components -/

/-- syntax_sugar_remover.rs:277-281, `UpdatedExpression`: components to declare, statements, expression. -/
structure Res where
  comps : List (Nat × Option Nat)
  stmts : List SStmt
  expr : SExpr
  deriving DecidableEq, Repr

/-- A list of statements as a chain. -/
def chain : List SStmt → SStmt
  | [] => .nil
  | s :: rest => .cons s (chain rest)

/-- A list of expressions as a chain. -/
def args : List SExpr → SExpr
  | [] => .nil
  | e :: rest => .cons e (args rest)

/-- `BTreeMap::insert`. -/
def insert {α : Type} (k : Nat) (v : α) : List (Nat × α) → List (Nat × α)
  | [] => [(k, v)]
  | (k', v') :: rest =>
    if k < k' then (k, v) :: (k', v') :: rest
    else if k = k' then (k, v) :: rest
    else (k', v') :: insert k v rest

/-- The map built by inserting the entries from left to right. -/
def toMap {α : Type} (l : List (Nat × α)) : List (Nat × α) :=
  l.foldl (fun m e => insert e.1 e.2 m) []

/-- syntax_sugar_remover.rs:500-536, the assignments to the inputs, ordered by name. The parser gives as
many names as expressions; with fewer expressions the code aborts. -/
def bind {α : Type} (tm : Templ) (names : Option (List (AOp × Nat))) (vals : List α) :
    Except Err (List (Nat × α)) :=
  match names with
  | some m =>
    if tm.inputs.length ≠ m.length then .error .arity
    else if m.any (fun x => decide (x.1 ≠ .con)) then .error .operator
    else if m.any (fun x => decide (x.2 ∉ tm.inputs)) then .error .noInput
    else if vals.length ≠ m.length then .error .panic
    else
      let r := toMap ((m.map (·.2)).zip vals)
      if tm.inputs.length ≠ r.length then .error .arity else .ok r
  | none =>
    if tm.inputs.length ≠ vals.length then .error .arity
    else .ok (toMap (tm.inputs.zip vals))

/-- syntax_sugar_remover.rs:444-588, the case of an anonymous component whose inputs have already been
treated. -/
def expand (N : Names) (T : Nat → Option Templ) (acc : Option Nat) (pos t : Nat) (params : SExpr)
    (names : Option (List (AOp × Nat))) (sigs : List Res) (par : Bool) : Except Err Res :=
  match T t with
  | none => .error .noTemplate
  | some tm =>
    match bind tm names sigs with
    | .error e => .error e
    | .ok ins =>
      let c := N.comp t pos
      .ok {
        comps := (c, acc) :: ins.flatMap (·.2.comps)
        stmts := [.block (chain (.create c acc t params par ::
          ins.flatMap fun x => x.2.stmts ++ [.input c acc x.1 x.2.expr]))]
        expr := match tm.outputs with
          | [o] => .out c acc o
          | os => .tuple (args (os.map fun o => .out c acc o)) }

/-- syntax_sugar_remover.rs:418-618, `remove_anonymous_from_expression`; for a chain the list of the
results. `acc` is the counter of the enclosing loop. -/
def removeE (N : Names) (T : Nat → Option Templ) (acc : Option Nat) : SExpr → Except Err (List Res)
  | .nil => .ok []
  | .cons e r =>
    match removeE N T acc e with
    | .error x => .error x
    | .ok re =>
      match removeE N T acc r with
      | .error x => .error x
      | .ok rr => .ok (re ++ rr)
  | .array es =>
    match removeE N T acc es with
    | .error x => .error x
    | .ok rs => .ok [⟨rs.flatMap (·.comps), rs.flatMap (·.stmts), .array (args (rs.map (·.expr)))⟩]
  | .tuple es =>
    match removeE N T acc es with
    | .error x => .error x
    | .ok rs => .ok [⟨rs.flatMap (·.comps), rs.flatMap (·.stmts), .tuple (args (rs.map (·.expr)))⟩]
  | .anon pos t ps names ss par =>
    match removeE N T acc ss with
    | .error x => .error x
    | .ok rs =>
      match expand N T acc pos t ps names rs par with
      | .error x => .error x
      | .ok r => .ok [r]
  | .par (.anon pos t ps names ss _) =>
    match removeE N T acc ss with
    | .error x => .error x
    | .ok rs =>
      match expand N T acc pos t ps names rs true with
      | .error x => .error x
      | .ok r => .ok [r]
  | e => .ok [⟨[], [], e⟩]

/-- syntax_sugar_remover.rs:277-281, `UpdatedStatement`: the statement, components to declare, counters
to declare, and their initialisations. -/
structure Upd where
  stmt : SStmt
  comps : List (Nat × Option Nat)
  vars : List Nat
  subs : List SStmt
  deriving DecidableEq, Repr

/-- syntax_sugar_remover.rs:283-415, `remove_anonymous_from_statement`. -/
def removeS (N : Names) (T : Nat → Option Templ) : Option Nat → SStmt → Except Err Upd
  | _, .nil => .ok ⟨.nil, [], [], []⟩
  | acc, .cons a b =>
    match removeS N T acc a with
    | .error x => .error x
    | .ok ua =>
      match removeS N T acc b with
      | .error x => .error x
      | .ok ub => .ok ⟨.cons ua.stmt ub.stmt, ua.comps ++ ub.comps, ua.vars ++ ub.vars, ua.subs ++ ub.subs⟩
  | acc, .assign x op e =>
    match removeE N T acc e with
    | .ok [r] =>
      if r.stmts = [] then .ok ⟨.assign x op r.expr, r.comps, [], []⟩
      else .ok ⟨.block (chain (r.stmts ++ [.assign x op r.expr])), r.comps, [], []⟩
    | .ok _ => .error .panic
    | .error e => .error e
  | acc, .mult l op e =>
    match removeE N T acc e with
    | .ok [r] =>
      if r.stmts = [] then .ok ⟨.mult l op r.expr, r.comps, [], []⟩
      else .ok ⟨.block (chain (r.stmts ++ [.mult l op r.expr])), r.comps, [], []⟩
    | .ok _ => .error .panic
    | .error e => .error e
  | acc, .ifThen c t =>
    match removeS N T acc t with
    | .error x => .error x
    | .ok u => .ok ⟨.ifThen c u.stmt, u.comps, u.vars, u.subs⟩
  | acc, .ifElse c t e =>
    match removeS N T acc t with
    | .error x => .error x
    | .ok u =>
      match removeS N T acc e with
      | .error x => .error x
      | .ok w => .ok ⟨.ifElse c u.stmt w.stmt, u.comps ++ w.comps, u.vars ++ w.vars, u.subs ++ w.subs⟩
  | _, .while pos c b =>
    let l := N.loop pos
    match removeS N T (some l) b with
    | .error x => .error x
    | .ok u =>
      if u.comps ≠ [] then
        .ok ⟨.while pos c (.block (chain [u.stmt, .assign l .var (.succ l)])), u.comps, l :: u.vars,
          u.subs ++ [.assign l .var (.num 0)]⟩
      else .ok ⟨.while pos c u.stmt, u.comps, [], []⟩
  | acc, .block b =>
    match removeS N T acc b with
    | .error x => .error x
    | .ok u => .ok ⟨.block u.stmt, u.comps, u.vars, u.subs⟩
  | acc, .init b =>
    match removeS N T acc b with
    | .error x => .error x
    | .ok u => .ok ⟨.init u.stmt, u.comps, u.vars, u.subs⟩
  | _, .under _ _ => .error .panic
  | _, s => .ok ⟨s, [], [], []⟩

/-! ### Removal of tuples -/

/-- syntax_sugar_remover.rs:726-814, `check_tuples_expression`. -/
def checkTE : SExpr → Except Err Unit
  | .nil | .num _ | .var _ | .out _ _ _ | .succ _ => .ok ()
  | .cons e r =>
    match checkTE e with
    | .error x => .error x
    | .ok _ => checkTE r
  | .op _ _ args => if hasTuple args then .error .tuple else .ok ()
  | .array es => if hasTuple es then .error .tuple else .ok ()
  | .tuple es => checkTE es
  | .anon _ _ _ _ _ _ => .error .panic
  | .par e => if hasTuple e then .error .tuple else .ok ()

/-- syntax_sugar_remover.rs:621-724, `check_tuples_statement`. -/
def checkTS : SStmt → Except Err Unit
  | .nil | .comp _ _ => .ok ()
  | .cons a b =>
    match checkTS a with
    | .error x => .error x
    | .ok _ => checkTS b
  | .decl _ dims => if hasTuple dims then .error .tuple else .ok ()
  | .assign _ _ e | .input _ _ _ e => checkTE e
  | .create _ _ _ ps _ => if hasTuple ps then .error .tuple else .ok ()
  | .under _ _ => .error .panic
  | .mult l _ r =>
    match checkTE l with
    | .error x => .error x
    | .ok _ => checkTE r
  | .emit args => if hasTuple args then .error .tuple else .ok ()
  | .ifThen c t => if hasTuple c then .error .tuple else checkTS t
  | .ifElse c t e =>
    if hasTuple c then .error .tuple
    else match checkTS t with
      | .error x => .error x
      | .ok _ => checkTS e
  | .while _ c b => if hasTuple c then .error .tuple else checkTS b
  | .block b | .init b => checkTS b

/-- syntax_sugar_remover.rs:940-959, `remove_tuple_from_expression`: the elements after flattening nested
tuples. -/
def flat : SExpr → List SExpr
  | .nil => []
  | .cons e r => flat e ++ flat r
  | .tuple es => flat es
  | e => [e]

/-- syntax_sugar_remover.rs:822-838: one assignment for each element. -/
def split (op : AOp) : List SExpr → List SExpr → Except Err (List SStmt)
  | .var x :: ls, r :: rs =>
    match split op ls rs with
    | .error e => .error e
    | .ok rest => .ok ((if x ≠ underscore then .assign x op r else .under op r) :: rest)
  | [], [] => .ok []
  | _, _ => .error .tuple

/-- syntax_sugar_remover.rs:816-921, `remove_tuples_from_statement`. -/
def removeT : SStmt → Except Err SStmt
  | .cons a b =>
    match removeT a with
    | .error x => .error x
    | .ok a' =>
      match removeT b with
      | .error x => .error x
      | .ok b' => .ok (.cons a' b')
  | .assign x op e =>
    if isTuple e then .error .tuple
    else .ok (if x ≠ underscore then .assign x op e else .under op e)
  | .input c l i e => if isTuple e then .error .tuple else .ok (.input c l i e)
  | .mult l op r =>
    if isTuple l && isTuple r then
      if (flat l).length = (flat r).length then
        match split op (flat l) (flat r) with
        | .error x => .error x
        | .ok ss => .ok (.block (chain ss))
      else .error .tuple
    else .error .tuple
  | .ifThen c t =>
    match removeT t with
    | .error x => .error x
    | .ok t' => .ok (.ifThen c t')
  | .ifElse c t e =>
    match removeT t with
    | .error x => .error x
    | .ok t' =>
      match removeT e with
      | .error x => .error x
      | .ok e' => .ok (.ifElse c t' e')
  | .while pos c b =>
    match removeT b with
    | .error x => .error x
    | .ok b' => .ok (.while pos c b')
  | .block b =>
    match removeT b with
    | .error x => .error x
    | .ok b' => .ok (.block b')
  | .init b =>
    match removeT b with
    | .error x => .error x
    | .ok b' => .ok (.init b')
  | .under _ _ => .error .panic
  | s => .ok s

/-- syntax_sugar_remover.rs:14-39, `apply_syntactic_sugar` for a template with body `{ b }`: the body
before the removal of tuples. -/
def withInits (u : Upd) : SStmt :=
  .block (chain ([.init (chain (u.vars.map fun x => .decl x .nil)),
    .init (chain (u.comps.map fun c => .comp c.1 c.2))] ++ u.subs ++ [u.stmt]))

/-- syntax_sugar_remover.rs:14-39 for a template with body `{ b }`. -/
def desugar (N : Names) (T : Nat → Option Templ) (b : SStmt) : Except Err SStmt :=
  match checkS b with
  | .error x => .error x
  | .ok _ =>
    match removeS N T none b with
    | .error x => .error x
    | .ok u =>
      match checkTS (withInits u) with
      | .error x => .error x
      | .ok _ => removeT (withInits u)

end Verif.Anon
