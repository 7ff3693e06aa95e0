import Verif.Anon
import Mathlib.Data.List.Sort

/-!
Two semantics for the language of `Verif/Anon.lean`. In the first one, for programs as the user writes
them, an anonymous component is an expression: its parameters and inputs are evaluated, a new instance of
the template is made, and the outputs of the instance are the values. The second one, for programs after
the removal, knows no anonymous components: instances are kept in a table under the name of a component
variable and an index, are made by an assignment, get their inputs one by one, and can be read when all the
inputs are there (execute.rs:258-335, 1775-1860; component_representation.rs:80-420). In both a run keeps
the variables, the list of the assignments to signals and checks done, and the instances in the order of creation.

The values and the operations on them are any (`Ops`).
-/

namespace Verif.Anon

open Verif.Exec (envGet envSet envAdd)

/-- Values: numbers, the value of a variable without one, the index a value stands for, operators, arrays,
conditions, and the outputs of an instance of a template in terms of parameters and inputs. -/
structure Ops (V : Type) where
  num : Int → V
  undef : V
  idx : V → Option Nat
  op : Nat → List V → Option V
  arr : List V → V
  truth : V → Option Bool
  out : Nat → List V → List (Nat × V) → Nat → Option V

/-- An instance of a template: parameters, whether it is parallel, inputs in the order of assignment. -/
structure Inst (V : Type) where
  t : Nat
  params : List V
  par : Bool
  ins : List (Nat × V)
  deriving DecidableEq, Repr

/-- What a run does: an assignment to a signal, or a statement on values. -/
inductive Ev (V : Type) where
  | set (x : Nat) (op : AOp) (v : V)
  | emit (vs : List V)
  deriving DecidableEq, Repr

/-! ### Programs with sugar -/

/-- The value of the input `i`: the expression given with that name, or at the position of its declaration. -/
def given {α : Type} (tm : Templ) (names : Option (List (AOp × Nat))) (vals : List α) (i : Nat) : Option α :=
  match names with
  | some m => vals[(m.map (·.2)).idxOf i]?
  | none => vals[tm.inputs.idxOf i]?

/-- The inputs of a template in the order of their names. -/
def ordered (tm : Templ) : List Nat := tm.inputs.insertionSort (· ≤ ·)

/-- The values of the inputs. -/
def inputsOf {α : Type} (tm : Templ) (names : Option (List (AOp × Nat))) (vals : List α) :
    Option (List (Nat × α)) :=
  (ordered tm).mapM fun i => (given tm names vals i).map fun v => (i, v)

/-- Each input gets one value. -/
def single {V : Type} : Nat × (List V × List (Inst V)) → Option (Nat × V)
  | (i, ([v], _)) => some (i, v)
  | _ => none

/-- An anonymous component, given the results for parameters and inputs: the values of the outputs in the
order of declaration; the new instance comes before those in its inputs. -/
def evalAnon {V : Type} (O : Ops V) (T : Nat → Option Templ) (t : Nat)
    (names : Option (List (AOp × Nat))) (par : Bool) (ps ss : List (List V × List (Inst V))) :
    Option (List V × List (Inst V)) :=
  match T t with
  | none => none
  | some tm =>
    match inputsOf tm names ss with
    | none => none
    | some ins =>
      match ins.mapM single with
      | none => none
      | some vs =>
        let pvs := ps.flatMap (·.1)
        match tm.outputs.mapM (O.out t pvs vs) with
        | none => none
        | some os => some (os, ps.flatMap (·.2) ++ ⟨t, pvs, par, vs⟩ :: ins.flatMap (·.2.2))

/-- Values and new instances of an expression; one result for each element of a chain. A tuple stands for
the values of its elements. -/
def evalD {V : Type} (O : Ops V) (T : Nat → Option Templ) (env : List (List (Nat × V))) :
    SExpr → Option (List (List V × List (Inst V)))
  | .nil => some []
  | .cons e r =>
    match evalD O T env e with
    | none => none
    | some a =>
      match evalD O T env r with
      | none => none
      | some b => some (a ++ b)
  | .num v => some [([O.num v], [])]
  | .var x =>
    match envGet env x with
    | none => none
    | some v => some [([v], [])]
  | .out _ _ _ | .succ _ => none
  | .op _ k args =>
    match evalD O T env args with
    | none => none
    | some rs =>
      match O.op k (rs.flatMap (·.1)) with
      | none => none
      | some v => some [([v], rs.flatMap (·.2))]
  | .array es =>
    match evalD O T env es with
    | none => none
    | some rs => some [([O.arr (rs.flatMap (·.1))], rs.flatMap (·.2))]
  | .tuple es =>
    match evalD O T env es with
    | none => none
    | some rs => some [(rs.flatMap (·.1), rs.flatMap (·.2))]
  | .anon _ t ps names ss par =>
    match evalD O T env ps with
    | none => none
    | some pr =>
      match evalD O T env ss with
      | none => none
      | some sr =>
        match evalAnon O T t names par pr sr with
        | none => none
        | some r => some [r]
  | .par (.anon _ t ps names ss _) =>
    match evalD O T env ps with
    | none => none
    | some pr =>
      match evalD O T env ss with
      | none => none
      | some sr =>
        match evalAnon O T t names true pr sr with
        | none => none
        | some r => some [r]
  | .par e => evalD O T env e

/-- State of a run of a program with sugar. -/
structure DSt (V : Type) where
  env : List (List (Nat × V))
  log : List (Ev V)
  insts : List (Inst V)
  deriving DecidableEq, Repr

/-- An assignment; `_` drops the value. -/
def put {V : Type} (x : Nat) (v : V) (env : List (List (Nat × V))) : Option (List (List (Nat × V))) :=
  if x = underscore then some env else envSet env x v

/-- The entry of the log for an assignment; assignments to variables show in the variables. -/
def note {V : Type} (x : Nat) (op : AOp) (v : V) : List (Ev V) :=
  if op = .var then [] else [.set x op v]

/-- Assignments to variables in a row. -/
def putAll {V : Type} (op : AOp) : List Nat → List V → List (List (Nat × V)) → List (Ev V) →
    Option (List (List (Nat × V)) × List (Ev V))
  | [], [], env, log => some (env, log)
  | x :: xs, v :: vs, env, log =>
    match put x v env with
    | none => none
    | some env' => putAll op xs vs env' (log ++ note x op v)
  | _, _, _, _ => none

/-- The variables of the left side of an assignment of tuples. -/
def targets : SExpr → Option (List Nat)
  | .nil => some []
  | .cons e r =>
    match targets e with
    | none => none
    | some a =>
      match targets r with
      | none => none
      | some b => some (a ++ b)
  | .var x => some [x]
  | .tuple es => targets es
  | _ => none

/-- A loop with condition `c` and body `b`, at most `fuel` iterations. -/
def loop {σ : Type} (c : σ → Option (σ × Bool)) (b : σ → Option σ) : Nat → σ → Option σ
  | 0, _ => none
  | fuel + 1, st =>
    match c st with
    | none => none
    | some (st', false) => some st'
    | some (st', true) =>
      match b st' with
      | none => none
      | some st'' => loop c b fuel st''

/-- The condition of a statement in a program with sugar. -/
def condD {V : Type} (O : Ops V) (T : Nat → Option Templ) (c : SExpr) (st : DSt V) :
    Option (DSt V × Bool) :=
  match evalD O T st.env c with
  | some [([v], is)] =>
    match O.truth v with
    | none => none
    | some b => some (⟨st.env, st.log, st.insts ++ is⟩, b)
  | _ => none

/-- Assignment of a tuple to the variables `xs`, element by element: every element is evaluated after the
assignments of the elements before it (mkdocs/docs/circom-language/anonymous-components-and-tuples.md:98-113).
Gives the variables left over. -/
def seqD {V : Type} (O : Ops V) (T : Nat → Option Templ) (op : AOp) :
    SExpr → List Nat → DSt V → Option (List Nat × DSt V)
  | .nil, xs, st => some (xs, st)
  | .cons e r, xs, st =>
    match seqD O T op e xs st with
    | none => none
    | some (xs', st') => seqD O T op r xs' st'
  | .tuple es, xs, st => seqD O T op es xs st
  | e, xs, st =>
    match evalD O T st.env e with
    | some [(vs, is)] =>
      match putAll op (xs.take vs.length) vs st.env st.log with
      | none => none
      | some (env, log) => some (xs.drop vs.length, ⟨env, log, st.insts ++ is⟩)
    | _ => none

/-- Runs of programs with sugar. -/
def runD {V : Type} (O : Ops V) (T : Nat → Option Templ) (fuel : Nat) : SStmt → DSt V → Option (DSt V)
  | .nil, st => some st
  | .cons a b, st =>
    match runD O T fuel a st with
    | none => none
    | some st' => runD O T fuel b st'
  | .decl x dims, st =>
    match evalD O T st.env dims with
    | none => none
    | some _ =>
      match envAdd st.env x O.undef with
      | none => none
      | some env => some ⟨env, st.log, st.insts⟩
  | .assign x op e, st =>
    match evalD O T st.env e with
    | some [([v], is)] =>
      match put x v st.env with
      | none => none
      | some env => some ⟨env, st.log ++ note x op v, st.insts ++ is⟩
    | _ => none
  | .mult l op r, st =>
    match targets l with
    | none => none
    | some xs =>
      match seqD O T op r xs st with
      | some ([], st') => some st'
      | _ => none
  | .emit args, st =>
    match evalD O T st.env args with
    | none => none
    | some rs => some ⟨st.env, st.log ++ [.emit (rs.flatMap (·.1))], st.insts ++ rs.flatMap (·.2)⟩
  | .ifThen c t, st =>
    match condD O T c st with
    | none => none
    | some (st', true) => runD O T fuel t st'
    | some (st', false) => some st'
  | .ifElse c t e, st =>
    match condD O T c st with
    | none => none
    | some (st', true) => runD O T fuel t st'
    | some (st', false) => runD O T fuel e st'
  | .while _ c b, st => loop (condD O T c) (runD O T fuel b) fuel st
  | .block b, st =>
    match runD O T fuel b ⟨[] :: st.env, st.log, st.insts⟩ with
    | none => none
    | some st' => some ⟨st'.env.tail, st'.log, st'.insts⟩
  | .init b, st => runD O T fuel b st
  | .comp _ _, _ | .create _ _ _ _ _, _ | .input _ _ _ _, _ | .under _ _, _ => none

/-! ### Programs without anonymous components -/

/-- The table of instances. -/
abbrev Store (V : Type) := List ((Nat × Nat) × Inst V)

/-- The instance at a key. -/
def look {V : Type} (k : Nat × Nat) : Store V → Option (Inst V)
  | [] => none
  | (k', i) :: rest => if k' = k then some i else look k rest

/-- The instance at a key gets an input, which it must not have yet. -/
def feed {V : Type} (k : Nat × Nat) (i : Nat) (v : V) : Store V → Option (Store V)
  | [] => none
  | (k', n) :: rest =>
    if k' = k then
      if i ∈ n.ins.map (·.1) then none
      else some ((k', { n with ins := n.ins ++ [(i, v)] }) :: rest)
    else
      match feed k i v rest with
      | none => none
      | some r => some ((k', n) :: r)

/-- The index of a component: 0 outside of loops, else the value of the counter. -/
def index {V : Type} (O : Ops V) (env : List (List (Nat × V))) : Option Nat → Option Nat
  | none => some 0
  | some l =>
    match envGet env l with
    | none => none
    | some v => O.idx v

/-- The value of an output; all inputs must be there. -/
def readOut {V : Type} (O : Ops V) (T : Nat → Option Templ) (n : Inst V) (o : Nat) : Option V :=
  match T n.t with
  | none => none
  | some tm => if tm.inputs.all (fun i => i ∈ n.ins.map (·.1)) then O.out n.t n.params n.ins o else none

/-- Values of an expression. -/
def evalP {V : Type} (O : Ops V) (T : Nat → Option Templ) (env : List (List (Nat × V))) (st : Store V) :
    SExpr → Option (List V)
  | .nil => some []
  | .cons e r =>
    match evalP O T env st e with
    | none => none
    | some a =>
      match evalP O T env st r with
      | none => none
      | some b => some (a ++ b)
  | .num v => some [O.num v]
  | .var x =>
    match envGet env x with
    | none => none
    | some v => some [v]
  | .out c l o =>
    match index O env l with
    | none => none
    | some n =>
      match look (c, n) st with
      | none => none
      | some i =>
        match readOut O T i o with
        | none => none
        | some v => some [v]
  | .succ l =>
    match index O env (some l) with
    | none => none
    | some n => some [O.num (n + 1)]
  | .op _ k args =>
    match evalP O T env st args with
    | none => none
    | some vs =>
      match O.op k vs with
      | none => none
      | some v => some [v]
  | .array es =>
    match evalP O T env st es with
    | none => none
    | some vs => some [O.arr vs]
  | .tuple es => evalP O T env st es
  | .anon _ _ _ _ _ _ => none
  | .par e => evalP O T env st e

/-- State of a run of a program without anonymous components. -/
structure PSt (V : Type) where
  env : List (List (Nat × V))
  log : List (Ev V)
  store : Store V
  deriving DecidableEq, Repr

/-- Elementwise assignment, each element evaluated when its turn comes. -/
def putEach {V : Type} (O : Ops V) (T : Nat → Option Templ) (op : AOp) :
    List Nat → List SExpr → PSt V → Option (PSt V)
  | [], [], st => some st
  | x :: xs, e :: es, st =>
    match evalP O T st.env st.store e with
    | some [v] =>
      match put x v st.env with
      | none => none
      | some env => putEach O T op xs es ⟨env, st.log ++ note x op v, st.store⟩
    | _ => none
  | _, _, _ => none

/-- The condition of a statement in a program without anonymous components. -/
def condP {V : Type} (O : Ops V) (T : Nat → Option Templ) (c : SExpr) (st : PSt V) :
    Option (PSt V × Bool) :=
  match evalP O T st.env st.store c with
  | some [v] =>
    match O.truth v with
    | none => none
    | some b => some (st, b)
  | _ => none

/-- Runs of programs without anonymous components. -/
def runP {V : Type} (O : Ops V) (T : Nat → Option Templ) (fuel : Nat) : SStmt → PSt V → Option (PSt V)
  | .nil, st => some st
  | .cons a b, st =>
    match runP O T fuel a st with
    | none => none
    | some st' => runP O T fuel b st'
  | .decl x dims, st =>
    match evalP O T st.env st.store dims with
    | none => none
    | some _ =>
      match envAdd st.env x O.undef with
      | none => none
      | some env => some ⟨env, st.log, st.store⟩
  | .comp _ _, st => some st
  | .assign x op e, st =>
    match evalP O T st.env st.store e with
    | some [v] =>
      match put x v st.env with
      | none => none
      | some env => some ⟨env, st.log ++ note x op v, st.store⟩
    | _ => none
  | .under op e, st =>
    match evalP O T st.env st.store e with
    | some [v] => some ⟨st.env, st.log ++ note underscore op v, st.store⟩
    | _ => none
  | .create c l t ps par, st =>
    match index O st.env l with
    | none => none
    | some n =>
      match evalP O T st.env st.store ps with
      | none => none
      | some pvs =>
        if (c, n) ∈ st.store.map (·.1) then none
        else some ⟨st.env, st.log, st.store ++ [((c, n), ⟨t, pvs, par, []⟩)]⟩
  | .input c l i e, st =>
    match index O st.env l with
    | none => none
    | some n =>
      match evalP O T st.env st.store e with
      | some [v] =>
        match feed (c, n) i v st.store with
        | none => none
        | some store => some ⟨st.env, st.log, store⟩
      | _ => none
  | .mult l op r, st =>
    match targets l with
    | none => none
    | some xs => putEach O T op xs (flat r) st
  | .emit args, st =>
    match evalP O T st.env st.store args with
    | none => none
    | some vs => some ⟨st.env, st.log ++ [.emit vs], st.store⟩
  | .ifThen c t, st =>
    match condP O T c st with
    | none => none
    | some (st', true) => runP O T fuel t st'
    | some (st', false) => some st'
  | .ifElse c t e, st =>
    match condP O T c st with
    | none => none
    | some (st', true) => runP O T fuel t st'
    | some (st', false) => runP O T fuel e st'
  | .while _ c b, st => loop (condP O T c) (runP O T fuel b) fuel st
  | .block b, st =>
    match runP O T fuel b ⟨[] :: st.env, st.log, st.store⟩ with
    | none => none
    | some st' => some ⟨st'.env.tail, st'.log, st'.store⟩
  | .init b, st => runP O T fuel b st

end Verif.Anon
