import Verif.Types

/-!
Model of the reduction of types, `type_analysis/src/decorators/type_reduction.rs`, and of the removal of component
assignments from the code of the witness calculator, `compiler/src/hir/component_preprocess.rs`.

The reduction runs after the inference of templates (`Verif.Infer`) and before the type checker
(check_types.rs:123-132). It writes on every variable expression and every assignment what is denoted: a variable, a
signal, a component or a tag. The analysis of unknowns, the execution and the code generation read it from there; in
particular the assignments marked as components or tags are removed before code is generated.

Fragment: that of `Verif.Types`; buses are left out. Parts of an initialisation (`component c = A();`) are a
declaration and an assignment here.
-/

namespace Verif.Types

/-- ast.rs:401-407, `TypeReduction`, without buses. -/
inductive Red where
  | var
  | sig
  | comp (t : Option Nat)
  | tag
  deriving DecidableEq, Repr

/-- An occurrence of a symbol with what is written on it; `port` is the name after the dot. -/
structure Rec where
  x : Nat
  port : Option Nat
  red : Red
  deriving DecidableEq, Repr

/-- type_reduction.rs:10, `Environment`: one flat table each of signals and components; blocks are not opened
(`reduce_types_in_vec_of_statements`, 211-218). The variables are stored too, but never looked up. -/
structure REnv where
  sigs : List Nat
  comps : List (Nat × Red)
  deriving DecidableEq, Repr

/-- type_reduction.rs:229-237: what the name alone denotes. -/
def REnv.base (env : REnv) (x : Nat) : Red :=
  if x ∈ env.sigs then .sig else match get env.comps x with
    | some r => r
    | none => .var

/-- type_reduction.rs:241-274: a name after the dot. `get_template_data` asserts that the template exists
(program_archive.rs:87-90). -/
def access (P : Prog) (r : Red) (s : Nat) : Except Rep Red :=
  match r with
  | .var => .ok .var
  | .comp none => .ok (.comp none)
  | .comp (some t) =>
    match get P.tpls t with
    | none => .error .panic
    | some D => if (portGet D.body s).isSome then .ok .sig else .error .err
  | .sig => .ok .tag
  | .tag => .ok .tag

/-- What the pass does to an expression: occurrences in the order of the visit, what is written on the expression
itself, and reports. -/
structure Out where
  recs : List Rec
  know : Option Red
  reps : List Rep
  deriving DecidableEq, Repr

/-- type_reduction.rs:83-117, `reduce_types_in_expression`, with 220-285 and 287-315. Only variables, calls and
`parallel` are written on; `parallel` asks what is written on its operand and panics if nothing is
(ast.rs, `get_reduces_to`). A call is taken for a component, whatever it calls. After a report the rest of the
accesses is not visited. A panic is a report here: what comes after it does not matter. -/
def redE (P : Prog) (env : REnv) : Exp → Out
  | .num => ⟨[], none, []⟩
  | .var x is =>
    let a := redE P env is
    ⟨a.recs ++ [⟨x, none, env.base x⟩], some (env.base x), a.reps⟩
  | .port x is s js =>
    let a := redE P env is
    match access P (env.base x) s with
    | .error p => ⟨a.recs, none, a.reps ++ [p]⟩
    | .ok r =>
      let b := redE P env js
      ⟨a.recs ++ b.recs ++ [⟨x, some s, r⟩], some r, a.reps ++ b.reps⟩
  | .op l r =>
    let a := redE P env l
    let b := redE P env r
    ⟨a.recs ++ b.recs, none, a.reps ++ b.reps⟩
  | .pre e =>
    let a := redE P env e
    ⟨a.recs, none, a.reps⟩
  | .par e =>
    let a := redE P env e
    match a.know with
    | some r => ⟨a.recs, some r, a.reps⟩
    | none => ⟨a.recs, none, a.reps ++ [.panic]⟩
  | .cond c t f =>
    let a := redE P env c
    let b := redE P env t
    let d := redE P env f
    ⟨a.recs ++ b.recs ++ d.recs, none, a.reps ++ b.reps ++ d.reps⟩
  | .arr es =>
    let a := redE P env es
    ⟨a.recs, none, a.reps⟩
  | .uni v n =>
    let a := redE P env v
    let b := redE P env n
    ⟨a.recs ++ b.recs, none, a.reps ++ b.reps⟩
  | .call f es =>
    let a := redE P env es
    ⟨a.recs, some (.comp (some f)), a.reps⟩
  | .nil => ⟨[], none, []⟩
  | .cons e es =>
    let a := redE P env e
    let b := redE P env es
    ⟨a.recs ++ b.recs, none, a.reps ++ b.reps⟩

/-- Statements with what is written on the assignments (`none`: nothing). -/
inductive AStmt where
  | skip
  | seq (a b : AStmt)
  | decl (k : Kind) (x : Nat) (ds : Exp)
  | sub (m : Option Red) (x : Nat) (is : Exp) (o : AOp) (e : Exp)
  | subp (m : Option Red) (x : Nat) (is : Exp) (s : Nat) (js : Exp) (o : AOp) (e : Exp)
  | eqc (l r : Exp)
  | log (e : Exp)
  | asrt (e : Exp)
  | ret (e : Exp)
  | ite (c : Exp) (a b : AStmt)
  | loop (c : Exp) (b : AStmt)
  | block (b : AStmt)
  | under (e : Exp)
  deriving DecidableEq, Repr

/-- What the pass does to a statement. -/
structure SOut where
  st : AStmt
  env : REnv
  recs : List Rec
  reps : List Rep
  deriving DecidableEq, Repr

/-- type_reduction.rs:130-152, `reduce_types_in_declaration`: what is added to the tables. -/
def REnv.declare (env : REnv) (k : Kind) (x : Nat) : REnv :=
  match k with
  | .var => env
  | .sig _ => { env with sigs := x :: env.sigs }
  | .comp _ => { env with comps := (x, .comp none) :: env.comps }

/-- type_reduction.rs:164-180: a component takes over what is written on the expression assigned to it, if anything
is. -/
def REnv.assign (env : REnv) (x : Nat) (know : Option Red) : REnv :=
  match get env.comps x, know with
  | some _, some r => { env with comps := (x, r) :: env.comps }
  | _, _ => env

/-- type_reduction.rs:39-70, `reduce_types_in_statement`, with 119-218. The name declared is added before the
dimensions are visited. -/
def redS (P : Prog) : Stmt → REnv → SOut
  | .skip, env => ⟨.skip, env, [], []⟩
  | .seq s t, env =>
    let a := redS P s env
    let b := redS P t a.env
    ⟨.seq a.st b.st, b.env, a.recs ++ b.recs, a.reps ++ b.reps⟩
  | .decl k x ds, env =>
    let a := redE P (env.declare k x) ds
    ⟨.decl k x ds, env.declare k x, a.recs, a.reps⟩
  | .sub x is o e, env =>
    let a := redE P env is
    let b := redE P env e
    ⟨.sub (some (env.base x)) x is o e, env.assign x b.know, a.recs ++ [⟨x, none, env.base x⟩] ++ b.recs,
      a.reps ++ b.reps⟩
  | .subp x is s js o e, env =>
    let a := redE P env is
    let b := redE P env e
    match access P (env.base x) s with
    | .error p => ⟨.subp none x is s js o e, env, a.recs ++ b.recs, a.reps ++ [p] ++ b.reps⟩
    | .ok r =>
      let c := redE P env js
      ⟨.subp (some r) x is s js o e, env, a.recs ++ c.recs ++ [⟨x, some s, r⟩] ++ b.recs,
        a.reps ++ c.reps ++ b.reps⟩
  | .eqc l r, env =>
    let a := redE P env l
    let b := redE P env r
    ⟨.eqc l r, env, a.recs ++ b.recs, a.reps ++ b.reps⟩
  | .log e, env => ⟨.log e, env, (redE P env e).recs, (redE P env e).reps⟩
  | .asrt e, env => ⟨.asrt e, env, (redE P env e).recs, (redE P env e).reps⟩
  | .ret e, env => ⟨.ret e, env, (redE P env e).recs, (redE P env e).reps⟩
  | .ite c s t, env =>
    let d := redE P env c
    let a := redS P s env
    let b := redS P t a.env
    ⟨.ite c a.st b.st, b.env, d.recs ++ a.recs ++ b.recs, d.reps ++ a.reps ++ b.reps⟩
  | .loop c s, env =>
    let d := redE P env c
    let a := redS P s env
    ⟨.loop c a.st, a.env, d.recs ++ a.recs, d.reps ++ a.reps⟩
  | .block s, env =>
    let a := redS P s env
    ⟨.block a.st, a.env, a.recs, a.reps⟩
  | .under e, env => ⟨.under e, env, (redE P env e).recs, (redE P env e).reps⟩

/-- type_reduction.rs:13-28, `reduce_function` and `reduce_template`. -/
def reduce (P : Prog) (D : Def) : SOut := redS P D.body ⟨[], []⟩

/-- component_preprocess.rs:120-132, `should_be_removed`, for an assignment. -/
def removed : Option Red → Bool
  | some (.comp _) => true
  | some .tag => true
  | _ => false

/-- component_preprocess.rs:10-118, `rm_statement`: declarations of signals and components, assignments marked as
components or tags, and assignments to `_` go; what is removed leaves an empty statement. -/
def rm : AStmt → Stmt
  | .skip => .skip
  | .seq a b => .seq (rm a) (rm b)
  | .decl .var x ds => .decl .var x ds
  | .decl (.sig _) _ _ => .skip
  | .decl (.comp _) _ _ => .skip
  | .sub m x is o e => if removed m then .skip else .sub x is o e
  | .subp m x is s js o e => if removed m then .skip else .subp x is s js o e
  | .eqc l r => .eqc l r
  | .log e => .log e
  | .asrt e => .asrt e
  | .ret e => .ret e
  | .ite c a b => .ite c (rm a) (rm b)
  | .loop c b => .loop c (rm b)
  | .block b => .block (rm b)
  | .under _ => .skip

end Verif.Types
