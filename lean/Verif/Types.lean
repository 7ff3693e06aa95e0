import Mathlib.Data.List.Forall2
import Mathlib.Data.List.Basic

/-!
Model of the type checker, `type_analysis/src/analyzers/type_check.rs`, with the calls register
(`type_register.rs`), the guess of the type of a function (`type_given_function.rs`), the two structural
checks it relies on (`functions_free_of_template_elements.rs`, `no_returns_in_template.rs`) and the
symbol analysis (`symbol_analysis.rs`).

Fragment: variables, signals, components and arrays of them, ports of components, all expressions,
functions and templates with parameters. Left out: buses, tags, anonymous components and tuples (removed
before, see `Verif.Anon`), locations and wording of the reports (only their presence counts).
Identifiers are numbers. Lists of expressions are built by `nil` and `cons` inside the type of
expressions; sequences of statements are binary. The branches of a conditional and the body of a loop are
always blocks; a branch that is a single statement cannot be a declaration (lang.lalrpop), so this makes
no difference.
-/

namespace Verif.Types

/-! ### Programs -/

/-- ast.rs:268-272, `SignalType`. -/
inductive Io where
  | input | output | inter
  deriving DecidableEq, Repr

/-- ast.rs:278-284, `VariableType`; for components with the template found by
`component_type_inference.rs` (`meta.component_inference`). -/
inductive Kind where
  | var
  | sig (io : Io)
  | comp (inferred : Option Nat)
  deriving DecidableEq, Repr

/-- ast.rs:361-365, `AssignOp`: `=`, `<--`, `<==`. -/
inductive AOp where
  | var | signal | constraint
  deriving DecidableEq, Repr

/-- ast.rs:287-346, `Expression`. The value of numbers and the operators play no part. `port` is a
variable with component access `x[is].s[js]`. -/
inductive Exp where
  | num
  | var (x : Nat) (is : Exp)
  | port (x : Nat) (is : Exp) (s : Nat) (js : Exp)
  | op (l r : Exp)
  | pre (e : Exp)
  | par (e : Exp)
  | cond (c a b : Exp)
  | arr (es : Exp)
  | uni (v n : Exp)
  | call (f : Nat) (es : Exp)
  | nil
  | cons (e es : Exp)
  deriving DecidableEq, Repr

/-- ast.rs:201-265, `Statement`. `sub` is an assignment to `x[is]`, `subp` to `x[is].s[js]`. -/
inductive Stmt where
  | skip
  | seq (a b : Stmt)
  | decl (k : Kind) (x : Nat) (ds : Exp)
  | sub (x : Nat) (is : Exp) (o : AOp) (e : Exp)
  | subp (x : Nat) (is : Exp) (s : Nat) (js : Exp) (o : AOp) (e : Exp)
  | eqc (l r : Exp)
  | log (e : Exp)
  | asrt (e : Exp)
  | ret (e : Exp)
  | ite (c : Exp) (a b : Stmt)
  | loop (c : Exp) (b : Stmt)
  | block (b : Stmt)
  | under (e : Exp)
  deriving DecidableEq, Repr

/-- template_data.rs, function_data.rs: parameters and body. -/
structure Def where
  params : List Nat
  body : Stmt
  deriving DecidableEq, Repr

/-- program_archive.rs: functions, templates, the expression of the main component. -/
structure Prog where
  fns : List (Nat × Def)
  tpls : List (Nat × Def)
  main : Exp
  deriving DecidableEq, Repr

/-- `HashMap::get`; an insertion puts the new entry in front. -/
def get {α : Type} : List (Nat × α) → Nat → Option α
  | [], _ => none
  | (y, a) :: l, x => if y = x then some a else get l x

/-- type_check.rs:902-906 and 1384-1390: functions before templates. -/
def lookup (P : Prog) (f : Nat) : Option Def :=
  match get P.fns f with
  | some D => some D
  | none => get P.tpls f

/-- Number of elements of a list of expressions. -/
def len : Exp → Nat
  | .cons _ es => len es + 1
  | _ => 0

/-! ### Environments -/

section Env

variable {α γ : Type}

/-- environment.rs, `get_variable`: innermost block first. -/
def getB : List (List (Nat × α)) → Nat → Option α
  | [], _ => none
  | b :: bs, x =>
    match get b x with
    | some a => some a
    | none => getB bs x

/-- Entry of the maps of signals and components. -/
inductive Decl (γ : Type) where
  | sig (io : Io) (n : Nat)
  | comp (c : γ)
  deriving DecidableEq, Repr

/-- environment.rs:37-51, the maps `signal_inputs`, `signal_outputs`, `signal_intermediates` and
`components` in one list; newest entry first. Unlike variables they have no blocks. -/
abbrev Flat (γ : Type) := List (Nat × Decl γ)

/-- One of the three maps of signals. -/
def sigIn (io : Io) (fl : Flat γ) (x : Nat) : Option Nat :=
  fl.findSome? fun e =>
    match e with
    | (y, .sig io' n) => if y = x ∧ io' = io then some n else none
    | _ => none

/-- environment.rs, `get_signal`: inputs, outputs, intermediates. -/
def sigGet (fl : Flat γ) (x : Nat) : Option Nat :=
  match sigIn .input fl x with
  | some n => some n
  | none =>
    match sigIn .output fl x with
    | some n => some n
    | none => sigIn .inter fl x

/-- environment.rs, `get_component`. -/
def compGet (fl : Flat γ) (x : Nat) : Option γ :=
  fl.findSome? fun e =>
    match e with
    | (y, .comp c) => if y = x then some c else none
    | _ => none

/-- environment.rs, `get_mut_component`. -/
def compSet (fl : Flat γ) (x : Nat) (f : γ → γ) : Flat γ :=
  fl.map fun e =>
    match e with
    | (y, .comp c) => if y = x then (y, .comp (f c)) else (y, .comp c)
    | e => e

/-- environment.rs:37-51, `RawEnvironment`: blocks of variables, innermost first, and the flat maps. -/
structure Env (α γ : Type) where
  blocks : List (List (Nat × α))
  flat : Flat γ

/-- environment.rs, `add_variable`: into the innermost block. -/
def addB (bs : List (List (Nat × α))) (x : Nat) (a : α) : List (List (Nat × α)) :=
  match bs with
  | [] => [[(x, a)]]
  | b :: bs => ((x, a) :: b) :: bs

end Env

/-- template_data.rs:160-238, `fill_inputs_and_outputs`: the input and output signals in the text of a
body, in the order of declaration; whether the declaration is reached plays no part. -/
def portsOf : Stmt → List (Nat × Io × Nat)
  | .decl (.sig io) x ds => if io = .inter then [] else [(x, io, len ds)]
  | .seq a b => portsOf a ++ portsOf b
  | .ite _ a b => portsOf a ++ portsOf b
  | .loop _ b => portsOf b
  | .block b => portsOf b
  | _ => []

/-- Dimension of a port: inputs before outputs (type_check.rs:1239-1248), the last declaration wins. -/
def portGet (body : Stmt) (s : Nat) : Option Nat :=
  let find (io : Io) := (portsOf body).reverse.findSome? fun e =>
    if e.1 = s ∧ e.2.1 = io then some e.2.2 else none
  match find .input with
  | some n => some n
  | none => find .output

/-! ### The type checker -/

/-- Why a program is not accepted: a report, an abort of the compiler, the fuel of the model. -/
inductive Rep where
  | err | panic | fuel
  deriving DecidableEq, Repr

/-- type_check.rs:31-38, `FoldedType` without buses. -/
inductive FT where
  | ar (n : Nat)
  | tpl (t : Nat)
  deriving DecidableEq, Repr

/-- type_check.rs:55-63, `dim`. -/
def FT.dim : FT → Nat
  | .ar n => n
  | .tpl _ => 0

/-- type_check.rs:46-48, `is_template`. -/
def FT.isTpl : FT → Bool
  | .ar _ => false
  | .tpl _ => true

/-- A single arithmetic value: neither template nor dimensions. -/
def FT.scalar : FT → Bool
  | .ar 0 => true
  | _ => false

/-- type_check.rs:22-29, `AnalysisInformation`. -/
structure St where
  rep : List Rep
  reg : List ((Nat × List Nat) × Nat)
  reached : List Nat
  env : Env Nat (Option Nat × Nat)
  ret : Option Nat

/-- type_check.rs:1461-1474, `add_report_and_end`, `add_report`. -/
def St.add (st : St) (r : Rep) : St := { st with rep := st.rep ++ [r] }

/-- A report unless the condition holds. -/
def St.need (st : St) (b : Bool) : St := if b then st else st.add .err

/-- type_register.rs:27-38, `get_instance`. -/
def regGet : List ((Nat × List Nat) × Nat) → Nat × List Nat → Option Nat
  | [], _ => none
  | (k', r) :: l, k => if k' = k then some r else regGet l k

/-- type_check.rs:1066-1072, `SymbolInformation`. -/
inductive Sym where
  | comp (t : Option Nat)
  | var (n : Nat)
  | sig (n : Nat)
  deriving DecidableEq, Repr

/-- type_check.rs:1074-1186 (`check_if_it_is_a_tag`) and 1188-1352 (`apply_access_to_symbol`), without
buses and tags: `x` with `k` indices, and possibly a port `s` with `m` indices. The dimensions are looked
up in the order component, signal, variable, the kind in the order variable, signal, component. With a
port every incomplete access is reported (1077-1080; too many indices underflow there). -/
def symbol (P : Prog) (env : Env Nat (Option Nat × Nat)) (x k : Nat) : Option (Nat × Nat) → Except Rep Sym
  | none =>
    match (match compGet env.flat x with
        | some (t, d) => some (t, d)
        | none =>
          match sigGet env.flat x with
          | some d => some (none, d)
          | none => (getB env.blocks x).map fun d => (none, d)) with
    | none => .error .panic
    | some (t, d) =>
      if k > d then .error .err
      else if (getB env.blocks x).isSome then .ok (.var (d - k))
      else if (sigGet env.flat x).isSome then .ok (.sig (d - k))
      else if d - k = 0 then .ok (.comp t)
      else .error .err
  | some (s, m) =>
    match compGet env.flat x with
    | some (t, d) =>
      if d ≠ k then .error .err
      else match t with
        | none => .error .err
        | some t =>
          match get P.tpls t with
          | none => .error .panic
          | some D =>
            match portGet D.body s with
            | none => .error .err
            | some pd => if m > pd then .error .err else .ok (.sig (pd - m))
    | none =>
      if (getB env.blocks x).isSome || (sigGet env.flat x).isSome then .error .err else .error .panic

/-- The type of an expression that is not a list. Lists occur only where the language has lists; elsewhere
they count as an abort. -/
def single : St × Option (List FT) → St × Option FT
  | (st, some [t]) => (st, some t)
  | (st, some _) => (st.add .panic, none)
  | (st, none) => (st, none)

/-- type_check.rs:1007-1048 (`treat_access`): indices must be single arithmetic values. An index that cannot be typed has
been reported. -/
def St.indices (st : St) : Option (List FT) → St
  | some ts => st.need (ts.all FT.scalar)
  | none => st

/-- type_check.rs:646-988, `type_expression`, and `type_array_of_expressions` (1355-1375) for lists. `call`
types a call of an existing function or template with the right number of arguments. A `none` always goes
with a report. -/
def ty (P : Prog) (call : Nat → List Nat → St → St × Option FT) : Exp → St → St × Option (List FT)
  | .num, st => (st, some [.ar 0])
  | .var x is, st =>
    match ty P call is st with
    | (st1, ris) =>
      let st2 := st1.indices ris
      match symbol P st2.env x (len is) none with
      | .error r => (st2.add r, none)
      | .ok (.comp (some t)) => (st2, some [.tpl t])
      | .ok (.comp none) => (st2.add .err, none)
      | .ok (.var n) => (st2, some [.ar n])
      | .ok (.sig n) => (st2, some [.ar n])
  | .port x is s js, st =>
    match ty P call is st with
    | (st1, ris) =>
      match ty P call js (st1.indices ris) with
      | (st2, rjs) =>
        let st3 := st2.indices rjs
        match symbol P st3.env x (len is) (some (s, len js)) with
        | .ok (.sig n) => (st3, some [.ar n])
        | .ok _ => (st3.add .panic, none)
        | .error r => (st3.add r, none)
  | .op l r, st =>
    match single (ty P call l st) with
    | (st1, rl) =>
      match single (ty P call r st1) with
      | (st2, rr) =>
        match rl, rr with
        | some a, some b =>
          if a.scalar && b.scalar then (st2, some [.ar 0]) else (st2.add .err, none)
        | _, _ => (st2, none)
  | .pre e, st =>
    match single (ty P call e st) with
    | (st1, some a) => if a.scalar then (st1, some [.ar 0]) else (st1.add .err, none)
    | (st1, none) => (st1, none)
  | .par e, st =>
    match single (ty P call e st) with
    | (st1, some a) => if a.isTpl then (st1, some [a]) else (st1.add .err, none)
    | (st1, none) => (st1, none)
  | .cond c a b, st =>
    match single (ty P call c st) with
    | (st1, rc) =>
      match single (ty P call a st1) with
      | (st2, ra) =>
        match single (ty P call b st2) with
        | (st3, rb) =>
          match ra with
          | none => (st3, none)
          | some ta =>
            match rc with
            | none => (st3, some [ta])
            | some tc =>
              match rb with
              | none => (st3.need tc.scalar, some [ta])
              | some tb => ((st3.need tc.scalar).need (ta = tb), some [ta])
  | .arr es, st =>
    match ty P call es st with
    | (st1, none) => (st1, none)
    | (st1, some []) => (st1.add .err, none)
    | (st1, some (t :: ts)) =>
      (st1.need ((t :: ts).all fun u => !u.isTpl && u.dim == t.dim), some [.ar (t.dim + 1)])
  | .uni v n, st =>
    match single (ty P call v st) with
    | (st1, none) => (st1, none)
    | (st1, some tv) =>
      match single (ty P call n (st1.need !tv.isTpl)) with
      | (st2, none) => (st2, none)
      | (st2, some tn) => (st2.need tn.scalar, some [.ar (tv.dim + 1)])
  | .call f es, st =>
    match ty P call es { st with reached := f :: st.reached } with
    | (st1, none) => (st1, if (get P.tpls f).isSome then some [.tpl f] else none)
    | (st1, some ts) =>
      if ts.any FT.isTpl then (st1.add .err, if (get P.tpls f).isSome then some [.tpl f] else none)
      else match lookup P f with
        | none => (st1.add .panic, none)
        | some D =>
          if D.params.length ≠ ts.length then (st1.add .err, some [.tpl f])
          else match call f (ts.map FT.dim) st1 with
            | (st2, r) => (st2, r.map ([·]))
  | .nil, st => (st, some [])
  | .cons e es, st =>
    match single (ty P call e st) with
    | (st1, re) =>
      match ty P call es st1 with
      | (st2, res) =>
        match re, res with
        | some t, some ts => (st2, some (t :: ts))
        | _, _ => (st2, none)

/-- type_check.rs:265-423, the checks of an assignment once the target is known. -/
def assignTo (st : St) (x : Nat) (o : AOp) (t : FT) : Sym → St
  | .sig n =>
    if o = .var then st.add .err
    else if t.isTpl then st.add .err
    else st.need (n = t.dim)
  | .var n =>
    if o ≠ .var then st.add .err
    else if t.isTpl then st.add .err
    else st.need (n = t.dim)
  | .comp c =>
    if o ≠ .var then st.add .err
    else match t, c with
      | .ar _, _ => st.add .err
      | .tpl u, none =>
        { st with env := { st.env with flat := compSet st.env.flat x fun e => (some u, e.2) } }
      | .tpl u, some v => st.need (u = v)

/-- type_check.rs:620-626, `Block`: a block of variables is opened and closed. -/
def inBlk (f : St → St) (st : St) : St :=
  let st' := f { st with env := { st.env with blocks := [] :: st.env.blocks } }
  { st' with env := { st'.env with blocks := st'.env.blocks.tail } }

/-- type_check.rs:166-644, `type_statement`. -/
def tyS (P : Prog) (call : Nat → List Nat → St → St × Option FT) : Stmt → St → St
  | .skip, st => st
  | .seq a b, st => tyS P call b (tyS P call a st)
  | .decl k x ds, st =>
    match ty P call ds st with
    | (st1, rds) =>
      let st2 := st1.indices rds
      match k with
      | .var => { st2 with env := { st2.env with blocks := addB st2.env.blocks x (len ds) } }
      | .sig io => { st2 with env := { st2.env with flat := (x, .sig io (len ds)) :: st2.env.flat } }
      | .comp inf => { st2 with env := { st2.env with flat := (x, .comp (inf, len ds)) :: st2.env.flat } }
  | .sub x is o e, st =>
    match single (ty P call e st) with
    | (st1, re) =>
      match re with
      | none => st1
      | some t =>
        match ty P call is st1 with
        | (st2, ris) =>
          let st3 := st2.indices ris
          match symbol P st3.env x (len is) none with
          | .error r => st3.add r
          | .ok s => assignTo st3 x o t s
  | .subp x is s js o e, st =>
    match single (ty P call e st) with
    | (st1, re) =>
      match re with
      | none => st1
      | some t =>
        match ty P call is st1 with
        | (st2, ris) =>
          match ty P call js (st2.indices ris) with
          | (st3, rjs) =>
            let st4 := st3.indices rjs
            match symbol P st4.env x (len is) (some (s, len js)) with
            | .error r => st4.add r
            | .ok y => assignTo st4 x o t y
  | .eqc l r, st =>
    match single (ty P call l st) with
    | (st1, rl) =>
      match single (ty P call r st1) with
      | (st2, rr) =>
        match rl, rr with
        | some a, some b => st2.need (!a.isTpl && !b.isTpl && a.dim == b.dim)
        | _, _ => st2
  | .log e, st =>
    match single (ty P call e st) with
    | (st1, re) =>
      match re with
      | none => st1
      | some t => st1.need t.scalar
  | .asrt e, st =>
    match single (ty P call e st) with
    | (st1, re) =>
      match re with
      | none => st1
      | some t => st1.need t.scalar
  | .ret e, st =>
    match single (ty P call e st) with
    | (st1, re) =>
      match re with
      | none => st1
      | some t =>
        match st1.ret with
        | none => st1.add .panic
        | some r => st1.need (r = t.dim)
  | .ite c a b, st =>
    match single (ty P call c st) with
    | (st1, rc) =>
      let st3 := inBlk (tyS P call b) (inBlk (tyS P call a) st1)
      match rc with
      | none => st3
      | some t => st3.need t.scalar
  | .loop c b, st =>
    match single (ty P call c st) with
    | (st1, rc) =>
      let st2 := inBlk (tyS P call b) st1
      match rc with
      | none => st2
      | some t => st2.need t.scalar
  | .block b, st => inBlk (tyS P call b) st
  | .under e, st =>
    match single (ty P call e st) with
    | (st1, re) =>
      match re with
      | none => st1
      | some t => st1.need !t.isTpl

/-- Result of `type_given_function`: a number of dimensions, no answer, an abort. -/
inductive Guess where
  | dim (n : Nat) | unable | panic
  deriving DecidableEq, Repr

/-- type_check.rs:1377-1400, `prepare_environment_for_call`: the parameters are variables of the only
block. -/
def paramsEnv (D : Def) (dims : List Nat) : Env Nat (Option Nat × Nat) :=
  ⟨[(D.params.zip dims).reverse], []⟩

/-- type_check.rs:907-931 with `type_template` (1402-1415) and `type_function` (1428-1458): a call with the
right number of arguments. Calls already registered are not typed again. The environment and the return
type of the caller are restored. -/
def callF (P : Prog) (given : Nat → List Nat → Guess) : Nat → Nat → List Nat → St → St × Option FT
  | 0, _, _, st => (st.add .fuel, none)
  | fuel + 1, f, dims, st =>
    match get P.fns f with
    | some D =>
      match regGet st.reg (f, dims) with
      | some r => (st, some (.ar r))
      | none =>
        match given f dims with
        | .panic => (st.add .panic, none)
        | .unable => (st.add .err, none)
        | .dim r =>
          let st' := tyS P (callF P given fuel) D.body
            { st with reg := st.reg ++ [((f, dims), r)], env := paramsEnv D dims, ret := some r }
          ({ st' with env := st.env, ret := st.ret }, some (.ar r))
    | none =>
      match get P.tpls f with
      | none => (st.add .panic, none)
      | some D =>
        match regGet st.reg (f, dims) with
        | some _ => (st, some (.tpl f))
        | none =>
          let st' := tyS P (callF P given fuel) D.body
            { st with reg := st.reg ++ [((f, dims), 0)], env := paramsEnv D dims }
          ({ st' with env := st.env }, some (.tpl f))

/-- State at the start: type_check.rs:84-91. -/
def St.init : St := ⟨[], [], [], ⟨[[]], []⟩, none⟩

/-- type_check.rs:83-147, `type_check` and the first test of `check_main_has_tags`: the expression of the main component is typed and
must be the call of a template. -/
def check (P : Prog) (given : Nat → List Nat → Guess) (fuel : Nat) : St :=
  match ty P (callF P given fuel) P.main St.init with
  | (st, none) => st
  | (st, some _) =>
    match P.main with
    | .call t _ => st.need (get P.tpls t).isSome
    | _ => st.add .err

/-! ### The guess of the type of a function -/

/-- Lookups of type_given_function.rs:29-43, `get_type`: the innermost block wins. -/
def guessVar (env : List (List (Nat × Nat))) (x : Nat) : Except Unit Nat :=
  match getB env x with
  | some n => .ok n
  | none => .error ()

/-- type_given_function.rs:197-322, `look_for_type_in_expression`. The explored functions are threaded
through; `start` explores a function. The result of a list of expressions are the types of all of them
(`?` in 305-316). -/
def guessE (start : Nat → List Nat → List Nat → List Nat × Except Unit (Option Nat))
    (env : List (List (Nat × Nat))) : Exp → List Nat → List Nat × Except Unit (Option (List Nat))
  | .num, ex => (ex, .ok (some [0]))
  | .var x is, ex =>
    match guessVar env x with
    | .error u => (ex, .error u)
    | .ok n => (ex, .ok (if len is > n then none else some [n - len is]))
  | .port x is _ js, ex =>
    match guessVar env x with
    | .error u => (ex, .error u)
    | .ok n => (ex, .ok (if len is + 1 + len js > n then none else some [n - (len is + 1 + len js)]))
  | .op l r, ex =>
    match guessE start env l ex with
    | (ex1, .ok none) => guessE start env r ex1
    | x => x
  | .pre e, ex => guessE start env e ex
  | .par e, ex => guessE start env e ex
  | .cond _ a b, ex =>
    match guessE start env a ex with
    | (ex1, .ok none) => guessE start env b ex1
    | x => x
  | .arr (.cons e _), ex =>
    match guessE start env e ex with
    | (ex1, .ok (some [n])) => (ex1, .ok (some [n + 1]))
    | x => x
  | .arr _, ex => (ex, .error ())
  | .uni v _, ex =>
    match guessE start env v ex with
    | (ex1, .ok (some [n])) => (ex1, .ok (some [n + 1]))
    | x => x
  | .call f es, ex =>
    if f ∈ ex then (ex, .ok none)
    else match guessE start env es ex with
      | (ex1, .ok (some dims)) =>
        match start f dims ex1 with
        | (ex2, .ok r) => (ex2, .ok (r.map ([·])))
        | (ex2, .error u) => (ex2, .error u)
      | x => x
  | .nil, ex => (ex, .ok (some []))
  | .cons e es, ex =>
    match guessE start env e ex with
    | (ex1, .ok (some [n])) =>
      match guessE start env es ex1 with
      | (ex2, .ok (some ns)) => (ex2, .ok (some (n :: ns)))
      | x => x
    | x => x

/-- type_given_function.rs:68-195, `look_for_return_in_statement`: the first return whose expression gets
a type. -/
def guessS (start : Nat → List Nat → List Nat → List Nat × Except Unit (Option Nat)) :
    Stmt → List (List (Nat × Nat)) → List Nat → List Nat × Except Unit (Option Nat × List (List (Nat × Nat)))
  | .ret e, env, ex =>
    match guessE start env e ex with
    | (ex1, .error u) => (ex1, .error u)
    | (ex1, .ok (some [n])) => (ex1, .ok (some n, env))
    | (ex1, .ok _) => (ex1, .ok (none, env))
  | .decl _ x ds, env, ex => (ex, .ok (none, addB env x (len ds)))
  | .seq a b, env, ex =>
    match guessS start a env ex with
    | (ex1, .ok (none, env1)) => guessS start b env1 ex1
    | x => x
  | .ite _ a b, env, ex =>
    match guessS start a ([] :: env) ex with
    | (ex1, .ok (none, env1)) =>
      match guessS start b ([] :: env1.tail) ex1 with
      | (ex2, .ok (r, env2)) => (ex2, .ok (r, env2.tail))
      | x => x
    | (ex1, .ok (some n, env1)) => (ex1, .ok (some n, env1.tail))
    | x => x
  | .loop _ b, env, ex =>
    match guessS start b ([] :: env) ex with
    | (ex1, .ok (r, env1)) => (ex1, .ok (r, env1.tail))
    | x => x
  | .block b, env, ex =>
    match guessS start b ([] :: env) ex with
    | (ex1, .ok (r, env1)) => (ex1, .ok (r, env1.tail))
    | x => x
  | _, env, ex => (ex, .ok (none, env))

/-- type_given_function.rs:45-66, `start`. No function is explored twice, so the fuel of `guess` is never
used up. -/
def guessStart (P : Prog) : Nat → Nat → List Nat → List Nat → List Nat × Except Unit (Option Nat)
  | 0, _, _, ex => (ex, .error ())
  | fuel + 1, f, dims, ex =>
    match get P.fns f with
    | none => (ex, .error ())
    | some D =>
      match guessS (guessStart P fuel) D.body [(D.params.zip dims).reverse] (f :: ex) with
      | (ex1, .ok (r, _)) => (ex1, .ok r)
      | (ex1, .error u) => (ex1, .error u)

/-- type_given_function.rs:10-17, `type_given_function`. -/
def guess (P : Prog) (f : Nat) (dims : List Nat) : Guess :=
  match (guessStart P (P.fns.length + 1) f dims []).2 with
  | .ok (some n) => .dim n
  | .ok none => .unable
  | .error _ => .panic

/-! ### Structural checks -/

/-- functions_free_of_template_elements.rs:157-220, `analyse_expression`. -/
def freeE (P : Prog) : Exp → Bool
  | .num => true
  | .var _ is => freeE P is
  | .port _ _ _ _ => false
  | .op l r => freeE P l && freeE P r
  | .pre e => freeE P e
  | .par e => freeE P e
  | .cond c a b => freeE P c && freeE P a && freeE P b
  | .arr es => freeE P es
  | .uni v n => freeE P v && freeE P n
  | .call f es => (get P.fns f).isSome && freeE P es
  | .nil => true
  | .cons e es => freeE P e && freeE P es

/-- functions_free_of_template_elements.rs:22-132, `analyse_statement`. -/
def freeS (P : Prog) : Stmt → Bool
  | .skip => true
  | .seq a b => freeS P a && freeS P b
  | .decl k _ ds => k = .var && freeE P ds
  | .sub _ is o e => o = .var && freeE P is && freeE P e
  | .subp _ _ _ _ _ _ => false
  | .eqc _ _ => false
  | .log e => freeE P e
  | .asrt e => freeE P e
  | .ret e => freeE P e
  | .ite c a b => freeE P c && freeS P a && freeS P b
  | .loop c b => freeE P c && freeS P b
  | .block b => freeS P b
  | .under e => freeE P e

/-- no_returns_in_template.rs:19-50, `look_for_return`. -/
def noRet : Stmt → Bool
  | .seq a b => noRet a && noRet b
  | .ite _ a b => noRet a && noRet b
  | .loop _ b => noRet b
  | .block b => noRet b
  | .ret _ => false
  | _ => true

/-- check_types.rs:87-140, the two structural analyses for the whole program. -/
def structured (P : Prog) : Bool :=
  P.fns.all (fun f => freeS P f.2.body) && P.tpls.all (fun t => noRet t.2.body)

/-! ### Symbol analysis -/

/-- symbol_analysis.rs:312-509, `analyze_expression`; no reports. -/
def namesE (P : Prog) (scope : List (List Nat)) : Exp → Bool
  | .num => true
  | .var x is => scope.any (·.contains x) && namesE P scope is
  | .port x is _ js => scope.any (·.contains x) && namesE P scope is && namesE P scope js
  | .op l r => namesE P scope l && namesE P scope r
  | .pre e => namesE P scope e
  | .par e => namesE P scope e
  | .cond c a b => namesE P scope c && namesE P scope a && namesE P scope b
  | .arr es => namesE P scope es
  | .uni v n => namesE P scope v && namesE P scope n
  | .call f es =>
    match lookup P f with
    | none => false
    | some D => len es = D.params.length && namesE P scope es
  | .nil => true
  | .cons e es => namesE P scope e && namesE P scope es

/-- symbol_analysis.rs:165-172, `add_symbol_to_block`. -/
def addName (scope : List (List Nat)) (x : Nat) : Option (List (List Nat)) :=
  match scope with
  | [] => none
  | b :: bs => if b.contains x then none else some ((x :: b) :: bs)

/-- symbol_analysis.rs:174-310, `analyze_statement`; `none` if there are reports, otherwise the blocks of
names after the statement. -/
def namesS (P : Prog) : Stmt → List (List Nat) → Option (List (List Nat))
  | .skip, sc => some sc
  | .seq a b, sc =>
    match namesS P a sc with
    | none => none
    | some sc1 => namesS P b sc1
  | .decl _ x ds, sc => if namesE P sc ds then addName sc x else none
  | .sub x is _ e, sc =>
    if namesE P sc e && sc.any (·.contains x) && namesE P sc is then some sc else none
  | .subp x is _ js _ e, sc =>
    if namesE P sc e && sc.any (·.contains x) && namesE P sc is && namesE P sc js then some sc else none
  | .eqc l r, sc => if namesE P sc l && namesE P sc r then some sc else none
  | .log e, sc => if namesE P sc e then some sc else none
  | .asrt e, sc => if namesE P sc e then some sc else none
  | .ret e, sc => if namesE P sc e then some sc else none
  | .ite c a b, sc =>
    if namesE P sc c && (namesS P a ([] :: sc)).isSome && (namesS P b ([] :: sc)).isSome then some sc else none
  | .loop c b, sc => if namesE P sc c && (namesS P b ([] :: sc)).isSome then some sc else none
  | .block b, sc => if (namesS P b ([] :: sc)).isSome then some sc else none
  | .under e, sc => if namesE P sc e then some sc else none

/-- symbol_analysis.rs:111-154, `analyze_symbols`. -/
def namesD (P : Prog) (D : Def) : Bool :=
  decide D.params.Nodup && (namesS P D.body [D.params.reverse]).isSome

/-- symbol_analysis.rs:13-109, `check_naming_correctness`. -/
def names (P : Prog) : Bool :=
  namesE P [] P.main && P.fns.all (fun f => namesD P f.2) && P.tpls.all (fun t => namesD P t.2)

end Verif.Types
