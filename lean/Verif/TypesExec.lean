import Verif.Types

/-!
Model of the shapes of the values of an execution, `constraint_generation/src/execute.rs`: which kind a
value has (arithmetic, component) and how many dimensions. Numbers, sizes and constraints are left out; a
choice that depends on them (a condition, an index, the number of iterations of a loop, the component of
an array) is made by an oracle `o`, read at successive positions.

An execution ends with the error `kind` where the compiler would meet a value of the wrong kind or of the
wrong number of dimensions (an `unwrap` of the other kind or an assertion on a single value aborts; a wrong
number of dimensions aborts, is reported or goes unnoticed, see C76), `unbound` for a name that is not in the environment (`unreachable!` in 977), `callee` for a
call of a definition that was removed from the archive, and `stop` for everything the type checker does
not speak of: components not yet initialised, functions without return, the depth of calls.

Template bodies are executed at the call, whereas the code executes them once their inputs are assigned
(1275-1326); they do not see the environment of the caller, so their own errors are the same.
-/

set_option linter.unusedVariables false

namespace Verif.Types

/-- Ends of an execution other than a value. -/
inductive Err where
  | kind | unbound | callee | stop
  deriving DecidableEq, Repr

/-- Shape of `FoldedValue` (execute.rs:103-131): an arithmetic slice with a number of dimensions, or the
instance of a template with the dimensions of its ports. `lost` stands for the arithmetic value of an
unknown condition or position, of which the type checker and the execution disagree (see `lose`). -/
inductive Val where
  | ar (n : Nat)
  | lost
  | tp (t : Nat) (ports : List (Nat × Nat))
  deriving DecidableEq, Repr

/-- `safe_unwrap_to_single_arithmetic_expression` (3889-3892) succeeds. -/
def Val.single : Val → Bool
  | .ar n => n == 0
  | .lost => true
  | .tp _ _ => false

/-- `safe_unwrap_to_arithmetic_slice` (3893-3896) succeeds. -/
def Val.arith : Val → Bool
  | .tp _ _ => false
  | _ => true

/-- The value fits `n` dimensions. -/
def Val.fits (n : Nat) : Val → Bool
  | .ar m => m == n
  | .lost => true
  | .tp _ _ => false

/-- execute.rs:1227-1242, 2837-2850: an unknown condition or position gives a single unknown cell whatever
the dimensions of the value it replaces. With `faithful` the shape is that of the cell, as in the code;
otherwise it is a value which fits everywhere. -/
def lose (faithful : Bool) : Val := if faithful then .ar 0 else .lost

/-- Environment of an execution: dimensions of variables (`none` if lost in a parameter), signals, and for
components the dimensions of their array and the instances assigned so far. -/
abbrev XEnv := Env (Option Nat) (Nat × List (Nat × List (Nat × Nat)))

/-- Results with the position of the oracle. -/
abbrev Res (α : Type) := Except Err (α × Nat)

/-- The operator `?` of the code. -/
def bnd {α β : Type} (r : Res α) (f : α → Nat → Res β) : Res β :=
  match r with
  | .ok (a, k) => f a k
  | .error e => .error e

/-- The value of an expression that is not a list. -/
def oneV : List Val → Nat → Res Val
  | [v], k => .ok (v, k)
  | _, _ => .error .kind

/-- An assertion. -/
def guard (b : Bool) (e : Err) (k : Nat) : Res Unit := if b then .ok ((), k) else .error e

/-- Reading `n` indices of something with `d` dimensions, with an unknown position if `w` is zero: 2837-2872,
2874-2967. -/
def readAr (faithful : Bool) (d n w : Nat) : Except Err Val :=
  if n > d then .error .kind
  else if w = 0 ∧ n > 0 ∧ d - n > 0 then .ok (lose faithful)
  else .ok (.ar (d - n))

/-- execute.rs:967-978, `Variable` without ports: signal, component, variable, in this order; 3198-3330 for
components. -/
def readX (faithful : Bool) (env : XEnv) (x n w : Nat) : Except Err Val :=
  match sigGet env.flat x with
  | some d => readAr faithful d n w
  | none =>
    match compGet env.flat x with
    | some (d, insts) =>
      if n ≠ d then .error .kind
      else if w = 0 ∧ n > 0 then .ok (lose faithful)
      else match insts[w - 1]? with
        | none => .error .stop
        | some (t, ports) => .ok (.tp t ports)
    | none =>
      match getB env.blocks x with
      | some none => .ok .lost
      | some (some d) => readAr faithful d n w
      | none => .error .unbound

/-- Dimensions of the port `s` of an instance (3241-3262, `get_io_value`); `stop` if the template has such a
port and this instance does not. -/
def portX (P : Prog) (t : Nat) (ports : List (Nat × Nat)) (s : Nat) : Except Err Nat :=
  match get ports s with
  | some d => .ok d
  | none =>
    match get P.tpls t with
    | none => .error .kind
    | some D => match portGet D.body s with
      | none => .error .kind
      | some _ => .error .stop

/-- The instance of the component `x` with `n` indices that a port is taken of. -/
def instX (env : XEnv) (x n w : Nat) : Except Err (Nat × List (Nat × Nat)) :=
  match sigGet env.flat x with
  | some _ => .error .kind
  | none =>
    match compGet env.flat x with
    | some (d, insts) =>
      if n ≠ d then .error .kind
      else match insts[w - 1]? with
        | none => .error .stop
        | some i => .ok i
    | none => if (getB env.blocks x).isSome then .error .kind else .error .unbound

/-- execute.rs:967-978 and 3198-3330, `Variable` with a port. -/
def readPort (P : Prog) (faithful : Bool) (env : XEnv) (x n s m w : Nat) : Except Err Val :=
  match instX env x n w with
  | .error e => .error e
  | .ok (t, ports) =>
    match portX P t ports s with
    | .error e => .error e
    | .ok d => if w = 0 ∧ n > 0 ∧ ¬ m > d then .ok (lose faithful) else readAr faithful d m w

/-- The oracle is asked. -/
def ask {α : Type} (o : Nat → Nat) (k : Nat) (f : Nat → Except Err α) : Res α :=
  match f (o k) with
  | .ok a => .ok (a, k + 1)
  | .error e => .error e

/-- execute.rs:981-1164, `ArrayInLine`: all values have the dimensions of the first. -/
def arrX : List Val → Except Err Val
  | [] => .error .kind
  | v :: vs =>
    if (v :: vs).all Val.arith then
      if Val.lost ∈ v :: vs then .ok .lost
      else match v with
        | .ar n => if vs.all (Val.fits n) then .ok (.ar (n + 1)) else .error .kind
        | _ => .error .kind
    else .error .kind

/-- execute.rs:953-1273, `execute_expression`; for a list the values of its elements. `reached` are the
definitions left in the archive (check_types.rs:56-71), `call` executes a call (1275-1326). -/
def eval (P : Prog) (faithful : Bool) (reached : List Nat) (o : Nat → Nat)
    (call : Nat → List Val → Nat → Res Val) (env : XEnv) : Exp → Nat → Res (List Val)
  | .num, k => .ok ([.ar 0], k)
  | .var x is, k =>
    bnd (eval P faithful reached o call env is k) fun vs k1 =>
    bnd (guard (vs.all Val.single) .kind k1) fun _ k1 =>
    bnd (ask o k1 (readX faithful env x (len is))) fun v k2 => .ok ([v], k2)
  | .port x is s js, k =>
    bnd (eval P faithful reached o call env is k) fun vs k1 =>
    bnd (eval P faithful reached o call env js k1) fun ws k2 =>
    bnd (guard (vs.all Val.single && ws.all Val.single) .kind k2) fun _ k2 =>
    bnd (ask o k2 (readPort P faithful env x (len is) s (len js))) fun v k3 => .ok ([v], k3)
  | .op l r, k =>
    bnd (bnd (eval P faithful reached o call env l k) oneV) fun v k1 =>
    bnd (bnd (eval P faithful reached o call env r k1) oneV) fun w k2 =>
    bnd (guard (v.single && w.single) .kind k2) fun _ k2 => .ok ([.ar 0], k2)
  | .pre e, k =>
    bnd (bnd (eval P faithful reached o call env e k) oneV) fun v k1 =>
    bnd (guard v.single .kind k1) fun _ k1 => .ok ([.ar 0], k1)
  | .par e, k =>
    bnd (bnd (eval P faithful reached o call env e k) oneV) fun v k1 =>
    match v with
    | .ar _ => .error .kind
    | v => .ok ([v], k1)
  | .cond c a b, k =>
    bnd (bnd (eval P faithful reached o call env c k) oneV) fun v k1 =>
    bnd (guard v.single .kind k1) fun _ k1 =>
    if o k1 = 0 then bnd (bnd (eval P faithful reached o call env a (k1 + 1)) oneV) fun v k2 => .ok ([v], k2)
    else if o k1 = 1 then bnd (bnd (eval P faithful reached o call env b (k1 + 1)) oneV) fun v k2 => .ok ([v], k2)
    else .ok ([lose faithful], k1 + 1)
  | .arr es, k =>
    bnd (eval P faithful reached o call env es k) fun vs k1 =>
    match arrX vs with
    | .ok v => .ok ([v], k1)
    | .error e => .error e
  | .uni v n, k =>
    bnd (bnd (eval P faithful reached o call env n k) oneV) fun w k1 =>
    bnd (guard w.single .kind k1) fun _ k1 =>
    bnd (bnd (eval P faithful reached o call env v k1) oneV) fun u k2 =>
    match u with
    | .ar d => .ok ([.ar (d + 1)], k2)
    | .lost => .ok ([.lost], k2)
    | .tp _ _ => .error .kind
  | .call f es, k =>
    bnd (eval P faithful reached o call env es k) fun vs k1 =>
    bnd (guard (vs.all Val.arith) .kind k1) fun _ k1 =>
    bnd (guard (reached.contains f) .callee k1) fun _ k1 =>
    bnd (call f vs k1) fun v k2 => .ok ([v], k2)
  | .nil, k => .ok ([], k)
  | .cons e es, k =>
    bnd (bnd (eval P faithful reached o call env e k) oneV) fun v k1 =>
    bnd (eval P faithful reached o call env es k1) fun vs k2 => .ok (v :: vs, k2)

/-- execute.rs:1544-2628, `perform_assign`, for `x[is]` with `n` indices: variable, signal, component, in this
order; the access of a component is computed for components only (380-386), so that the branch of
variables aborts in 1571 if there is a component of the same name. -/
def assignX (env : XEnv) (x n : Nat) (op : AOp) (v : Val) : Except Err XEnv :=
  match getB env.blocks x with
  | some d =>
    if (compGet env.flat x).isSome then .error .kind
    else if op ≠ .var then .error .kind
    else match d with
      | none => if v.arith then .ok env else .error .kind
      | some d => if n ≤ d ∧ v.fits (d - n) then .ok env else .error .kind
  | none =>
    match sigGet env.flat x with
    | some d =>
      if op = .var then .error .kind
      else if n ≤ d ∧ v.fits (d - n) then .ok env else .error .kind
    | none =>
      match compGet env.flat x with
      | some (d, insts) =>
        if op ≠ .var then .error .kind
        else if n ≠ d then .error .kind
        else match v with
          | .ar _ => .error .kind
          | .lost => .ok env
          | .tp t ports =>
            if insts.all (fun i => i.1 == t) then
              .ok { env with flat := compSet env.flat x fun e => (e.1, (t, ports) :: e.2) }
            else .error .kind
      | none => .error .unbound

/-- `perform_assign` for `x[is].s[js]`. -/
def assignP (P : Prog) (env : XEnv) (x n s m : Nat) (op : AOp) (v : Val) (w : Nat) : Except Err Unit :=
  if (getB env.blocks x).isSome then .error .kind
  else match instX env x n w with
    | .error e => .error e
    | .ok (t, ports) =>
      match portX P t ports s with
      | .error e => .error e
      | .ok d => if op ≠ .var ∧ m ≤ d ∧ v.fits (d - m) then .ok () else .error .kind

/-- execute.rs:722-729, `Block`. -/
def blkX (f : XEnv → Nat → Res (XEnv × Option Val)) (env : XEnv) (k : Nat) : Res (XEnv × Option Val) :=
  bnd (f { env with blocks := [] :: env.blocks } k) fun r k1 =>
    .ok (({ r.1 with blocks := r.1.blocks.tail }, r.2), k1)

/-- execute.rs:686-721, `While`: the iterations. -/
def iter (f : XEnv → Nat → Res (XEnv × Option Val)) : Nat → XEnv → Nat → Res (XEnv × Option Val)
  | 0, env, k => .ok ((env, none), k)
  | n + 1, env, k =>
    bnd (f env k) fun r k1 =>
    match r.2 with
    | some _ => .ok (r, k1)
    | none => iter f n r.1 k1

/-- execute.rs:233-859, `execute_statement`: the environment after the statement and the returned value. With
an unknown condition both branches are executed, the second even if the first returns, and one of the
returned values is taken (2630-2703). -/
def exec (P : Prog) (faithful : Bool) (reached : List Nat) (o : Nat → Nat)
    (call : Nat → List Val → Nat → Res Val) : Stmt → XEnv → Nat → Res (XEnv × Option Val)
  | .skip, env, k => .ok ((env, none), k)
  | .seq a b, env, k =>
    bnd (exec P faithful reached o call a env k) fun r k1 =>
    match r.2 with
    | some _ => .ok (r, k1)
    | none => exec P faithful reached o call b r.1 k1
  | .decl kd x ds, env, k =>
    bnd (eval P faithful reached o call env ds k) fun vs k1 =>
    bnd (guard (vs.all Val.single) .kind k1) fun _ k1 =>
    match kd with
    | .var => .ok (({ env with blocks := addB env.blocks x (some (len ds)) }, none), k1)
    | .sig io => .ok (({ env with flat := (x, .sig io (len ds)) :: env.flat }, none), k1)
    | .comp _ => .ok (({ env with flat := (x, .comp (len ds, [])) :: env.flat }, none), k1)
  | .sub x is op e, env, k =>
    bnd (eval P faithful reached o call env is k) fun vs k1 =>
    bnd (guard (vs.all Val.single) .kind k1) fun _ k1 =>
    bnd (bnd (eval P faithful reached o call env e k1) oneV) fun v k2 =>
    match assignX env x (len is) op v with
    | .ok env' => .ok ((env', none), k2)
    | .error e => .error e
  | .subp x is s js op e, env, k =>
    bnd (eval P faithful reached o call env is k) fun vs k1 =>
    bnd (eval P faithful reached o call env js k1) fun ws k2 =>
    bnd (guard (vs.all Val.single && ws.all Val.single) .kind k2) fun _ k2 =>
    bnd (bnd (eval P faithful reached o call env e k2) oneV) fun v k3 =>
    bnd (ask o k3 (assignP P env x (len is) s (len js) op v)) fun _ k4 => .ok ((env, none), k4)
  | .eqc l r, env, k =>
    bnd (bnd (eval P faithful reached o call env l k) oneV) fun v k1 =>
    bnd (bnd (eval P faithful reached o call env r k1) oneV) fun w k2 =>
    bnd (guard (match v with
      | .ar n => w.fits n
      | .lost => w.arith
      | .tp _ _ => false) .kind k2) fun _ k2 => .ok ((env, none), k2)
  | .log e, env, k =>
    bnd (bnd (eval P faithful reached o call env e k) oneV) fun v k1 =>
    bnd (guard v.single .kind k1) fun _ k1 => .ok ((env, none), k1)
  | .asrt e, env, k =>
    bnd (bnd (eval P faithful reached o call env e k) oneV) fun v k1 =>
    bnd (guard v.single .kind k1) fun _ k1 => .ok ((env, none), k1)
  | .ret e, env, k =>
    bnd (bnd (eval P faithful reached o call env e k) oneV) fun v k1 =>
    bnd (guard v.arith .kind k1) fun _ k1 => .ok ((env, some v), k1)
  | .ite c a b, env, k =>
    bnd (bnd (eval P faithful reached o call env c k) oneV) fun v k1 =>
    bnd (guard v.single .kind k1) fun _ k1 =>
    if o k1 = 0 then blkX (exec P faithful reached o call a) env (k1 + 1)
    else if o k1 = 1 then blkX (exec P faithful reached o call b) env (k1 + 1)
    else
      bnd (blkX (exec P faithful reached o call a) env (k1 + 1)) fun ra k2 =>
      bnd (blkX (exec P faithful reached o call b) ra.1 k2) fun rb k3 =>
      match ra.2, rb.2 with
      | none, r => .ok ((rb.1, r), k3)
      | some v, none => .ok ((rb.1, some v), k3)
      | some v, some w => .ok ((rb.1, some (if o k1 = 2 then v else w)), k3)
  | .loop c b, env, k =>
    bnd (iter (fun env k =>
        bnd (bnd (eval P faithful reached o call env c k) oneV) fun v k1 =>
        bnd (guard v.single .kind k1) fun _ k1 =>
        blkX (exec P faithful reached o call b) env k1) (o k) env (k + 1)) fun r k1 =>
    match r.2 with
    | some _ => .ok (r, k1)
    | none =>
      bnd (bnd (eval P faithful reached o call r.1 c k1) oneV) fun v k2 =>
      bnd (guard v.single .kind k2) fun _ k2 => .ok (r, k2)
  | .block b, env, k => blkX (exec P faithful reached o call b) env k
  | .under e, env, k =>
    bnd (bnd (eval P faithful reached o call env e k) oneV) fun v k1 =>
    bnd (guard v.arith .kind k1) fun _ k1 => .ok ((env, none), k1)

/-- Dimensions of a parameter. -/
def Val.dims : Val → Option Nat
  | .ar n => some n
  | _ => none

/-- The ports of an instance: the input and output signals declared by its execution (1422-1479). -/
def portsX (env : XEnv) : List (Nat × Nat) :=
  env.flat.filterMap fun e =>
    match e with
    | (x, .sig io n) => if io = .inter then none else some (x, n)
    | _ => none

/-- execute.rs:1275-1326, `execute_call`, with 3332-3355 (`prepare_environment_for_call`), 3357-3375
(`execute_function_call`) and 3379-3484 (`execute_template_call`), up to a depth of calls. -/
def callX (P : Prog) (faithful : Bool) (reached : List Nat) (o : Nat → Nat) :
    Nat → Nat → List Val → Nat → Res Val
  | 0, _, _, _ => .error .stop
  | fuel + 1, f, vs, k =>
    match get P.fns f with
    | some D =>
      if D.params.length ≠ vs.length then .error .kind
      else
        bnd (exec P faithful reached o (callX P faithful reached o fuel) D.body
          ⟨[(D.params.zip (vs.map Val.dims)).reverse], []⟩ k) fun r k1 =>
        match r.2 with
        | none => .error .stop
        | some v => .ok (v, k1)
    | none =>
      match get P.tpls f with
      | none => .error .callee
      | some D =>
        if D.params.length ≠ vs.length then .error .kind
        else
          bnd (exec P faithful reached o (callX P faithful reached o fuel) D.body
            ⟨[(D.params.zip (vs.map Val.dims)).reverse], []⟩ k) fun r k1 =>
          match r.2 with
          | some _ => .error .kind
          | none => .ok (.tp f (portsX r.1), k1)

/-- execute.rs:165-204, `constraint_execution`: the expression of the main component is executed. -/
def run (P : Prog) (faithful : Bool) (reached : List Nat) (o : Nat → Nat) (fuel : Nat) : Res (List Val) :=
  eval P faithful reached o (callX P faithful reached o fuel) ⟨[[]], []⟩ P.main 0

end Verif.Types
