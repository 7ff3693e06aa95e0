import Verif.TypesCheck
import Verif.TypesNames

/-!
Model of the inference of the templates of components,
`type_analysis/src/decorators/component_type_inference.rs`: before the type checker runs, every declaration
of a component is marked with the template found in the text of the assignments to it.
Buses and anonymous components are left out as in `Verif.Types`; the loop over the templates of the archive
visits them in the order of the list, which makes no difference because each is treated on its own.
-/

namespace Verif.Types

/-- component_type_inference.rs:7-10, `PathInformation`. The map `environment` is a list, newest entry first. -/
structure Path where
  comps : List Nat
  env : List (Nat × Nat)
  deriving DecidableEq, Repr

/-- component_type_inference.rs:62-78, `into_template_inference`. -/
def tplOf (tpls : List (Nat × Def)) : Exp → Option Nat
  | .cond _ a b =>
    match tplOf tpls a with
    | some t => some t
    | none => tplOf tpls b
  | .call f _ => if (get tpls f).isSome then some f else none
  | .par e => tplOf tpls e
  | _ => none

/-- component_type_inference.rs:53-57, the case of an assignment; accesses of the target play no part. -/
def Path.assign (i : Path) (tpls : List (Nat × Def)) (x : Nat) (e : Exp) : Path :=
  if i.comps.contains x then
    match tplOf tpls e with
    | some t => { i with env := (x, t) :: i.env }
    | none => i
  else i

/-- component_type_inference.rs:27-60, `infer_component_types`. -/
def collect (tpls : List (Nat × Def)) : Stmt → Path → Path
  | .ite _ a b, i => collect tpls b (collect tpls a i)
  | .loop _ b, i => collect tpls b i
  | .block b, i => collect tpls b i
  | .seq a b, i => collect tpls b (collect tpls a i)
  | .decl (.comp _) x _, i => { i with comps := x :: i.comps }
  | .sub x _ _ e, i => i.assign tpls x e
  | .subp x _ _ _ _ e, i => i.assign tpls x e
  | _, i => i

/-- component_type_inference.rs:80-108, `apply_inference`, with the entries left (`HashMap::remove`). -/
def mark : Stmt → List (Nat × Nat) → Stmt × List (Nat × Nat)
  | .ite c a b, env =>
    let (a', env1) := mark a env
    let (b', env2) := mark b env1
    (.ite c a' b', env2)
  | .loop c b, env =>
    let (b', env1) := mark b env
    (.loop c b', env1)
  | .block b, env =>
    let (b', env1) := mark b env
    (.block b', env1)
  | .seq a b, env =>
    let (a', env1) := mark a env
    let (b', env2) := mark b env1
    (.seq a' b', env2)
  | .decl (.comp _) x ds, env => (.decl (.comp (get env x)) x ds, env.filter fun e => e.1 != x)
  | s, env => (s, env)

/-- component_type_inference.rs:14-24, the treatment of one template. -/
def inferDef (tpls : List (Nat × Def)) (D : Def) : Def :=
  { D with body := (mark D.body (collect tpls D.body ⟨[], []⟩).env).1 }

/-- component_type_inference.rs:12-25, `inference`; called in check_types.rs:127 before the type checker. -/
def infer (P : Prog) : Prog :=
  { P with tpls := P.tpls.map fun t => (t.1, inferDef P.tpls t.2) }

end Verif.Types
