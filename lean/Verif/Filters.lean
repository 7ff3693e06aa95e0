import Verif.Analysis

/-!
Model of constant folding and removal of dead code, `constraint_generation/src/execution_data/filters.rs`,
as applied to the code of every template instance by `add_node_to_scheme`
(executed_program.rs:103-113), together with the records of symbolic execution it relies on
(execute.rs:241-242 and 1261-1268).

Statements and expressions carry the identifiers (`elem_id`) by which the records are kept. The
fragment is the one of `Verif.Exec` without `return` (templates have none; code of functions is not
filtered). A list of statements is a chain of `cons` ended by `nil`; `init` is an
`InitializationBlock`.
-/

namespace Verif.Filters

open Verif.ModArith Verif.Algebra Verif.Exec Verif.Analysis

/-- ast.rs, `Expression` with `Meta::elem_id` (the scalar part). -/
inductive LExpr where
  | num (id : Nat) (v : Int)
  | var (id : Nat) (x : Nat)
  | sig (id : Nat) (s : Nat)
  | bin (id : Nat) (op : Op) (l r : LExpr)
  | un (id : Nat) (op : UOp) (e : LExpr)
  | ite (id : Nat) (c a b : LExpr)
  deriving DecidableEq, Repr

/-- ast.rs, `Statement` with `Meta::elem_id` (the part modelled). -/
inductive LStmt where
  | nil
  | cons (s rest : LStmt)
  | decl (id : Nat) (x : Nat)
  | assign (id : Nat) (x : Nat) (e : LExpr)
  | sassign (id : Nat) (s : Nat) (e : LExpr)
  | cassign (id : Nat) (s : Nat) (e : LExpr)
  | check (id : Nat) (l r : LExpr)
  | ifThen (id : Nat) (c : LExpr) (t : LStmt)
  | ifElse (id : Nat) (c : LExpr) (t e : LStmt)
  | while (id : Nat) (c : LExpr) (b : LStmt)
  | block (id : Nat) (b : LStmt)
  | init (id : Nat) (b : LStmt)
  deriving DecidableEq, Repr

/-- `Meta::elem_id` of an expression. -/
def LExpr.id : LExpr → Nat
  | .num i _ | .var i _ | .sig i _ | .bin i _ _ _ | .un i _ _ | .ite i _ _ _ => i

/-- `Meta::elem_id` of a statement; a chain has none and is given that of its first statement. -/
def LStmt.id : LStmt → Nat
  | .nil => 0
  | .cons s _ => s.id
  | .decl i _ | .assign i _ _ | .sassign i _ _ | .cassign i _ _ | .check i _ _ | .ifThen i _ _
  | .ifElse i _ _ _ | .while i _ _ | .block i _ | .init i _ => i

/-- The expression without identifiers. -/
def LExpr.erase : LExpr → Expr
  | .num _ v => .num v
  | .var _ x => .var x
  | .sig _ s => .sig s
  | .bin _ op l r => .bin op l.erase r.erase
  | .un _ op e => .un op e.erase
  | .ite _ c a b => .ite c.erase a.erase b.erase

/-- The statement without identifiers. -/
def LStmt.erase : LStmt → Stmt
  | .nil => .skip
  | .cons s rest => .seq s.erase rest.erase
  | .decl _ x => .decl x
  | .assign _ x e => .assign x e.erase
  | .sassign _ s e => .sassign s e.erase
  | .cassign _ s e => .cassign s e.erase
  | .check _ l r => .check l.erase r.erase
  | .ifThen _ c t => .ifte c.erase t.erase none
  | .ifElse _ c t e => .ifte c.erase t.erase (some e.erase)
  | .while _ c b => .while c.erase b.erase
  | .block _ b => .block b.erase
  | .init _ b => b.erase

/-! ### Records of symbolic execution -/

/-- Identifiers of statements reached and values found for expressions. -/
structure Visits where
  reached : List Nat
  values : List (Nat × V)
  deriving DecidableEq

/-- No visits. -/
def Visits.none : Visits := ⟨[], []⟩

/-- First the one, then the other. -/
def Visits.append (a b : Visits) : Visits := ⟨a.reached ++ b.reached, a.values ++ b.values⟩

instance : Append Visits := ⟨Visits.append⟩

/-- The value of an expression (irrelevant if its evaluation fails, as then the execution ends). -/
def val (field : Int) (sigs : Nat → AState) (env : List (List (Nat × V))) (e : LExpr) : V :=
  match eval field sigs env e.erase with
  | .ok v => v
  | .error _ => .nonQuadratic

/-- execute.rs:953-1271: the calls of `Analysis::computed` (1266) made by the evaluation of an
expression. The branches of an inline conditional are evaluated only if chosen by a known condition
(1197-1213). -/
def visits (field : Int) (sigs : Nat → AState) (env : List (List (Nat × V))) :
    LExpr → List (Nat × V)
  | .num i v => [(i, val field sigs env (.num i v))]
  | .var i x => [(i, val field sigs env (.var i x))]
  | .sig i s => [(i, val field sigs env (.sig i s))]
  | .bin i op l r =>
    visits field sigs env l ++ visits field sigs env r ++ [(i, val field sigs env (.bin i op l r))]
  | .un i op e => visits field sigs env e ++ [(i, val field sigs env (.un i op e))]
  | .ite i c a b =>
    visits field sigs env c ++
      (match getBool (val field sigs env c) field with
        | some true => visits field sigs env a
        | some false => visits field sigs env b
        | none => []) ++ [(i, val field sigs env (.ite i c a b))]

/-- Not in the compiler: the values of all parts of an expression. -/
def everywhere (field : Int) (sigs : Nat → AState) (env : List (List (Nat × V))) :
    LExpr → List (Nat × V)
  | .num i v => [(i, val field sigs env (.num i v))]
  | .var i x => [(i, val field sigs env (.var i x))]
  | .sig i s => [(i, val field sigs env (.sig i s))]
  | .bin i op l r =>
    everywhere field sigs env l ++ everywhere field sigs env r ++
      [(i, val field sigs env (.bin i op l r))]
  | .un i op e => everywhere field sigs env e ++ [(i, val field sigs env (.un i op e))]
  | .ite i c a b =>
    everywhere field sigs env c ++ everywhere field sigs env a ++ everywhere field sigs env b ++
      [(i, val field sigs env (.ite i c a b))]

/-- Not in the compiler: the values in the branches of inline conditionals with unknown condition,
which are not evaluated. -/
def skipped (field : Int) (sigs : Nat → AState) (env : List (List (Nat × V))) :
    LExpr → List (Nat × V)
  | .bin _ _ l r => skipped field sigs env l ++ skipped field sigs env r
  | .un _ _ e => skipped field sigs env e
  | .ite _ c a b =>
    skipped field sigs env c ++
      (match getBool (val field sigs env c) field with
        | some true => skipped field sigs env a
        | some false => skipped field sigs env b
        | none => everywhere field sigs env a ++ everywhere field sigs env b)
  | _ => []

/-- Records of the evaluation of an expression in a state. -/
def seen (field : Int) (st : St) (e : LExpr) : Visits := ⟨[], visits field st.sigs st.env e⟩

/-- What the evaluation of an expression leaves out. -/
def unseen (field : Int) (st : St) (e : LExpr) : Visits := ⟨[], skipped field st.sigs st.env e⟩

/-- `Analysis::reached` (execute.rs:242). -/
def at_ (i : Nat) : Visits := ⟨[i], []⟩

/-- State, records, and (not in the compiler) the visits left out: those of skipped branches of
inline conditionals and of a third pass over loops with unknown condition. -/
abbrev ExV := Ex (St × Visits × Visits)

/-- execute.rs:2630-2703, `execute_conditional_statement`, as `Exec.conditional`, with the records. -/
def conditionalV (field : Int) (c : LExpr) (t : St → ExV) (e : Option (St → ExV)) (st : St) :
    Ex (St × Visits × Visits × Option Bool) :=
  match eval field st.sigs st.env c.erase with
  | .error er => .error er
  | .ok vc =>
    match getBool vc field with
    | some true =>
      match t st with
      | .error er => .error er
      | .ok (st', l, s) => .ok (st', seen field st c ++ l, unseen field st c ++ s, some true)
    | some false =>
      match e with
      | none => .ok (st, seen field st c, unseen field st c, some false)
      | some f =>
        match f st with
        | .error er => .error er
        | .ok (st', l, s) => .ok (st', seen field st c ++ l, unseen field st c ++ s, some false)
    | none =>
      match t (enter st) with
      | .error er => .error er
      | .ok (st1, l1, s1) =>
        match e with
        | none => .ok (leave st st1, seen field st c ++ l1, unseen field st c ++ s1, none)
        | some f =>
          match st1.conds.getLast? with
          | none => .error .panic
          | some last =>
            match f (flip last st1) with
            | .error er => .error er
            | .ok (st2, l2, s2) =>
              .ok (leave st st2, seen field st c ++ l1 ++ l2, unseen field st c ++ s1 ++ s2, none)

/-- A pass over a loop without the records. -/
def plain (step : St → Ex (St × Visits × Visits × Option Bool)) (st : St) :
    Ex (St × Option V × Option Bool) :=
  match step st with
  | .error e => .error e
  | .ok (st', _, _, c) => .ok (st', none, c)

/-- Not in the compiler: the visits of a third pass. -/
def thirdPass (step : St → Ex (St × Visits × Visits × Option Bool)) (st : St) : Visits :=
  match step st with
  | .error _ => .none
  | .ok (_, l, s, _) => l ++ s

/-- execute.rs:690-721, the `loop` of a `while` statement, as `Exec.whileLoop`, with the records. -/
def whileLoopV (step : St → Ex (St × Visits × Visits × Option Bool)) : Nat → St → ExV
  | 0, _ => .error .outOfFuel
  | fuel + 1, st =>
    match step st with
    | .error e => .error e
    | .ok (st1, l1, s1, none) =>
      match step st1 with
      | .error e => .error e
      | .ok (st2, l2, s2, _) =>
        .ok (markUnstable (plain step) st2, l1 ++ l2, s1 ++ s2 ++ thirdPass step st2)
    | .ok (st1, l1, s1, some false) => .ok (st1, l1, s1)
    | .ok (st1, l1, s1, some true) =>
      match whileLoopV step fuel (endIteration st1) with
      | .error e => .error e
      | .ok (st2, l2, s2) => .ok (st2, l1 ++ l2, s1 ++ s2)

/-- execute.rs:234-858, `execute_statement`, as `Exec.exec`, with the records. -/
def execV (fuel : Nat) (field : Int) : LStmt → St → ExV
  | .nil, st => .ok (st, .none, .none)
  | .cons a b, st =>
    match execV fuel field a st with
    | .error er => .error er
    | .ok (st1, l1, s1) =>
      match execV fuel field b st1 with
      | .error er => .error er
      | .ok (st2, l2, s2) => .ok (st2, l1 ++ l2, s1 ++ s2)
  | .decl i x, st =>
    match exec fuel field (.decl x) st with
    | .error er => .error er
    | .ok (st', _) => .ok (st', at_ i, .none)
  | .assign i x e, st =>
    match exec fuel field (.assign x e.erase) st with
    | .error er => .error er
    | .ok (st', _) => .ok (st', at_ i ++ seen field st e, unseen field st e)
  | .sassign i s e, st =>
    match exec fuel field (.sassign s e.erase) st with
    | .error er => .error er
    | .ok (st', _) => .ok (st', at_ i ++ seen field st e, unseen field st e)
  | .cassign i s e, st =>
    match exec fuel field (.cassign s e.erase) st with
    | .error er => .error er
    | .ok (st', _) => .ok (st', at_ i ++ seen field st e, unseen field st e)
  | .check i l r, st =>
    match exec fuel field (.check l.erase r.erase) st with
    | .error er => .error er
    | .ok (st', _) =>
      .ok (st', at_ i ++ seen field st l ++ seen field st r, unseen field st l ++ unseen field st r)
  | .ifThen i c t, st =>
    match conditionalV field c (execV fuel field t) none st with
    | .error er => .error er
    | .ok (st', l, s, _) => .ok (st', at_ i ++ l, s)
  | .ifElse i c t e, st =>
    match conditionalV field c (execV fuel field t) (some (execV fuel field e)) st with
    | .error er => .error er
    | .ok (st', l, s, _) => .ok (st', at_ i ++ l, s)
  | .while i c b, st =>
    match whileLoopV (conditionalV field c (execV fuel field b) none) fuel (startLoop st) with
    | .error er => .error er
    | .ok (st', l, s) => .ok (st', at_ i ++ l, s)
  | .block i b, st =>
    match execV fuel field b { st with env := [] :: st.env } with
    | .error er => .error er
    | .ok (st', l, s) => .ok ({ st' with env := st'.env.tail }, at_ i ++ l, s)
  | .init i b, st =>
    match execV fuel field b st with
    | .error er => .error er
    | .ok (st', l, s) => .ok (st', at_ i ++ l, s)

/-- analysis.rs:11-37: the analysis left by the given visits. -/
def analyse (idMax : Nat) (l : Visits) : Res Analysis :=
  match reachAll (new idMax) l.reached with
  | .error e => .error e
  | .ok a => recordAll a l.values

/-! ### Removal of dead code -/

/-- filters.rs:20-33, the choice made for a conditional: the original statement, or one of its
branches if the recorded value of the condition says which. -/
def choose (a : Analysis) (field : Int) (c : LExpr) (keep yes no : LStmt) : Res LStmt :=
  match readComputed a c.id with
  | .error e => .error e
  | .ok none => .ok keep
  | .ok (some v) => if asBool v field then .ok yes else .ok no

/-- filters.rs:8-46, `clean_dead_code`: the statement changed in place and the result, which says
whether it is empty. Chains stand for the lists of a `Block` (34-43); they do not occur as
statements of their own. -/
def clean (a : Analysis) (field : Int) : LStmt → Res (LStmt × Bool)
  | .while i c b =>
    match clean a field b with
    | .error e => .error e
    | .ok (b', n) => .ok (.while i c b', n)
  | .ifThen i c t =>
    match clean a field t with
    | .error e => .error e
    | .ok (t', n) =>
      match choose a field c (.ifThen i c t') t' (.block i .nil) with
      | .error e => .error e
      | .ok s => .ok (s, n)
  | .ifElse i c t e =>
    match clean a field t with
    | .error er => .error er
    | .ok (t', n) =>
      match clean a field e with
      | .error er => .error er
      | .ok (e', m) =>
        match choose a field c (if m then .ifThen i c t' else .ifElse i c t' e') t'
            (if m then .block i .nil else e') with
        | .error er => .error er
        | .ok s => .ok (s, n && m)
  | .block i b =>
    match clean a field b with
    | .error e => .error e
    | .ok (b', n) => .ok (.block i b', n)
  | .nil => .ok (.nil, true)
  | .cons s rest =>
    match isReached a s.id with
    | .error e => .error e
    | .ok false => clean a field rest
    | .ok true =>
      match clean a field s with
      | .error e => .error e
      | .ok (s', n) =>
        match clean a field rest with
        | .error e => .error e
        | .ok (rest', m) => if n then .ok (rest', m) else .ok (.cons s' rest', false)
  | s => .ok (s, false)

/-! ### Constant folding -/

/-- filters.rs:142-196, `computed_or_original` followed by `apply_computed_expr`. -/
def foldE (a : Analysis) (e : LExpr) : Res LExpr :=
  match readComputed a e.id with
  | .error er => .error er
  | .ok (some v) => .ok (.num e.id v)
  | .ok none =>
    match e with
    | .bin i op l r =>
      match foldE a l with
      | .error er => .error er
      | .ok l' =>
        match foldE a r with
        | .error er => .error er
        | .ok r' => .ok (.bin i op l' r')
    | .un i op x =>
      match foldE a x with
      | .error er => .error er
      | .ok x' => .ok (.un i op x')
    | .ite i c x y =>
      match foldE a x with
      | .error er => .error er
      | .ok x' =>
        match foldE a y with
        | .error er => .error er
        | .ok y' =>
          match foldE a c with
          | .error er => .error er
          | .ok c' => .ok (.ite i c' x' y')
    | other => .ok other

/-- filters.rs:50-112, `apply_computed`. -/
def foldS (a : Analysis) : LStmt → Res LStmt
  | .nil => .ok .nil
  | .cons s rest =>
    match foldS a s with
    | .error er => .error er
    | .ok s' =>
      match foldS a rest with
      | .error er => .error er
      | .ok rest' => .ok (.cons s' rest')
  | .decl i x => .ok (.decl i x)
  | .assign i x e =>
    match foldE a e with
    | .error er => .error er
    | .ok e' => .ok (.assign i x e')
  | .sassign i s e =>
    match foldE a e with
    | .error er => .error er
    | .ok e' => .ok (.sassign i s e')
  | .cassign i s e =>
    match foldE a e with
    | .error er => .error er
    | .ok e' => .ok (.cassign i s e')
  | .check i l r =>
    match foldE a l with
    | .error er => .error er
    | .ok l' =>
      match foldE a r with
      | .error er => .error er
      | .ok r' => .ok (.check i l' r')
  | .ifThen i c t =>
    match foldE a c with
    | .error er => .error er
    | .ok c' =>
      match foldS a t with
      | .error er => .error er
      | .ok t' => .ok (.ifThen i c' t')
  | .ifElse i c t e =>
    match foldE a c with
    | .error er => .error er
    | .ok c' =>
      match foldS a t with
      | .error er => .error er
      | .ok t' =>
        match foldS a e with
        | .error er => .error er
        | .ok e' => .ok (.ifElse i c' t' e')
  | .while i c b =>
    match foldE a c with
    | .error er => .error er
    | .ok c' =>
      match foldS a b with
      | .error er => .error er
      | .ok b' => .ok (.while i c' b')
  | .block i b =>
    match foldS a b with
    | .error er => .error er
    | .ok b' => .ok (.block i b')
  | .init i b =>
    match foldS a b with
    | .error er => .error er
    | .ok b' => .ok (.init i b')

/-- executed_program.rs:111-112: `apply_unused`, then `apply_computed`. -/
def filterCode (a : Analysis) (field : Int) (s : LStmt) : Res LStmt :=
  match clean a field s with
  | .error e => .error e
  | .ok (s', _) => foldS a s'

end Verif.Filters
