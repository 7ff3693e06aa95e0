import Verif.Filters

/-!
Model of the static analysis that refuses constraints under conditions that may be unknown during
constraint generation, `type_analysis/src/analyzers/unknown_known_analysis.rs`, for the scalar
fragment of `Verif.Exec` (statements as in `Verif.Filters`, identifiers only used to name the
reported conditions).
-/

namespace Verif.Known

open Verif.Exec Verif.Filters

/-- unknown_known_analysis.rs:24-28, `Tag`. -/
inductive KTag where
  | known
  | unknown
  deriving DecidableEq, Repr

/-- unknown_known_analysis.rs:27: the order is `Known < Unknown`. -/
def KTag.max : KTag → KTag → KTag
  | .known, t => t
  | .unknown, _ => .unknown

/-- The derived order of pairs, as used by `max` in `check_modified` and `merge`. -/
def tmax (a b : KTag × Bool) : KTag × Bool :=
  if a.1 = b.1 then (a.1, a.2 || b.2) else if a.1 = .known then b else a

/-- unknown_known_analysis.rs:30-39: for each variable, whether it is known and whether it counts as
an array. -/
abbrev TEnv := List (List (Nat × (KTag × Bool)))

/-- Ways in which the analysis can end without result: `get_variable_or_break` of a missing variable,
or the bound on the number of passes over a loop (not in the code, see `analyze`). -/
inductive KErr where
  | panic
  | outOfFuel
  deriving DecidableEq, Repr

/-- unknown_known_analysis.rs:397-443, `tag`. -/
def tag (env : TEnv) : LExpr → Except KErr KTag
  | .num _ _ => .ok .known
  | .var _ x =>
    match envGet env x with
    | none => .error .panic
    | some (t, arr) => .ok (if arr then .known else t)
  | .sig _ _ => .ok .unknown
  | .bin _ _ l r =>
    match tag env l with
    | .error e => .error e
    | .ok tl =>
      match tag env r with
      | .error e => .error e
      | .ok tr => .ok (tr.max tl)
  | .un _ _ e => tag env e
  | .ite _ c a b =>
    match tag env c with
    | .error e => .error e
    | .ok tc =>
      match tag env a with
      | .error e => .error e
      | .ok ta =>
        match tag env b with
        | .error e => .error e
        | .ok tb => .ok (tc.max (ta.max tb))

/-- unknown_known_analysis.rs:15-22, `ExitInformation`; of a report its condition is kept (all reports
of the fragment are `UnreachableConstraints`). Sets of names as lists. -/
structure Exit where
  reports : List Nat
  env : TEnv
  constraints : Bool
  modified : List Nat
  deriving DecidableEq

/-- unknown_known_analysis.rs:447-467, `check_modified`: whether a variable has become unknown, and the
final state joined with the initial one. -/
def checkModified (ini : TEnv) : List Nat → TEnv → Bool × TEnv
  | [], fin => (false, fin)
  | v :: rest, fin =>
    match envGet ini v, envGet fin v with
    | some ti, some tf =>
      if ti ≠ tf then
        match envSet fin v (tmax ti tf) with
        | none => checkModified ini rest fin
        | some fin' =>
          let r := checkModified ini rest fin'
          (decide (tf.1 = .unknown) || r.1, r.2)
      else checkModified ini rest fin
    | _, _ => checkModified ini rest fin

/-- unknown_known_analysis.rs:283-290 and 338-345: the given variables become unknown. -/
def forget : List Nat → TEnv → TEnv
  | [], env => env
  | v :: rest, env =>
    match envGet env v with
    | none => forget rest env
    | some (_, arr) =>
      match envSet env v (.unknown, arr) with
      | none => forget rest env
      | some env' => forget rest env'

/-- environment.rs:639-659, `hashmap_union` with `max`. -/
def mergeBlock (l r : List (Nat × (KTag × Bool))) : List (Nat × (KTag × Bool)) :=
  l.map (fun x => (x.1, match blockGet r x.1 with
    | some v => tmax x.2 v
    | none => x.2)) ++ r.filter (fun x => (blockGet l x.1).isNone)

/-- environment.rs:76-116, `merge`: block by block from the innermost one. -/
def merge : TEnv → TEnv → TEnv
  | l :: ls, r :: rs => mergeBlock l r :: merge ls rs
  | _, _ => []

/-- unknown_known_analysis.rs:315-327: a loop body is analysed until no variable becomes unknown. The
first argument bounds the number of passes. -/
def fixpoint (body : TEnv → Except KErr Exit) : Nat → TEnv → Except KErr Exit
  | 0, _ => .error .outOfFuel
  | n + 1, env =>
    match body env with
    | .error e => .error e
    | .ok ex =>
      match checkModified env ex.modified ex.env with
      | (true, env') => fixpoint body n env'
      | (false, env') => .ok { ex with env := env' }

/-- The number of names a statement can report as modified (bounds the passes over a loop). -/
def names : LStmt → Nat
  | .cons a b => names a + names b
  | .decl _ _ | .assign _ _ _ => 1
  | .ifThen _ _ t => names t
  | .ifElse _ _ t e => names t + names e
  | .block _ b | .init _ b => names b
  | _ => 0

/-- unknown_known_analysis.rs:78-395, `analyze`. The names modified in a loop are not handed on
(314-374 do not touch `modified_variables`). -/
def analyze : LStmt → TEnv → Except KErr Exit
  | .nil, env => .ok ⟨[], env, false, []⟩
  | .cons a b, env =>
    match analyze a env with
    | .error e => .error e
    | .ok x =>
      match analyze b x.env with
      | .error e => .error e
      | .ok y => .ok ⟨x.reports ++ y.reports, y.env, x.constraints || y.constraints,
          x.modified ++ y.modified⟩
  | .decl _ x, env =>
    match envAdd env x (.known, false) with
    | none => .error .panic
    | some env' => .ok ⟨[], env', false, [x]⟩
  | .assign _ x e, env =>
    match tag env e with
    | .error er => .error er
    | .ok t =>
      match envGet env x with
      | none => .error .panic
      | some (old, arr) =>
        match envSet env x (if !arr || decide (old = .known) then t else old, arr) with
        | none => .error .panic
        | some env' => .ok ⟨[], env', false, [x]⟩
  | .sassign _ _ e, env =>
    match tag env e with
    | .error er => .error er
    | .ok _ => .ok ⟨[], env, false, []⟩
  | .cassign _ _ e, env =>
    match tag env e with
    | .error er => .error er
    | .ok _ => .ok ⟨[], env, true, []⟩
  | .check _ _ _, env => .ok ⟨[], env, true, []⟩
  | .ifThen _ c t, env =>
    match tag env c with
    | .error er => .error er
    | .ok tc =>
      match analyze t env with
      | .error er => .error er
      | .ok x =>
        let m := merge x.env env
        match tc with
        | .known => .ok ⟨x.reports, m, x.constraints, x.modified⟩
        | .unknown => .ok ⟨x.reports ++ (if x.constraints then [c.id] else []), forget x.modified m,
            x.constraints, x.modified⟩
  | .ifElse _ c t e, env =>
    match tag env c with
    | .error er => .error er
    | .ok tc =>
      match analyze t env with
      | .error er => .error er
      | .ok x =>
        match analyze e env with
        | .error er => .error er
        | .ok y =>
          let m := merge x.env y.env
          match tc with
          | .known => .ok ⟨x.reports ++ y.reports, m, y.constraints || x.constraints,
              x.modified ++ y.modified⟩
          | .unknown => .ok ⟨x.reports ++ y.reports ++ (if y.constraints || x.constraints then [c.id] else []),
              forget (x.modified ++ y.modified) m, y.constraints || x.constraints, x.modified ++ y.modified⟩
  | .while _ c b, env =>
    match fixpoint (analyze b) (names b + 1) env with
    | .error er => .error er
    | .ok x =>
      match tag x.env c with
      | .error er => .error er
      | .ok .known => .ok ⟨x.reports, x.env, x.constraints, []⟩
      | .ok .unknown => .ok ⟨x.reports ++ (if x.constraints then [c.id] else []), forget x.modified x.env,
          x.constraints, []⟩
  | .block _ b, env =>
    match analyze b ([] :: env) with
    | .error er => .error er
    | .ok x => .ok ⟨x.reports, x.env.tail, x.constraints, x.modified⟩
  | .init _ b, env => analyze b env

/-- unknown_known_analysis.rs:41-76, `unknown_known_analysis`: the parameters of the template are known
and count as arrays; the template is accepted if there are no reports. -/
def accepted (params : List Nat) (s : LStmt) : Except KErr Bool :=
  match analyze s [params.map fun x => (x, (.known, true))] with
  | .error e => .error e
  | .ok x => .ok x.reports.isEmpty

end Verif.Known
