import Mathlib.Data.List.Basic

/-!
# The instances of functions

Before the witness program is written, `run_preprocessing` (`compiler/src/hir/merger.rs`) makes,
for each function, one instance for each choice of dimensions of its arguments that is called
(`produce_vcf`), infers the dimensions each instance returns (`compiler/src/hir/type_inference.rs`)
and then renames each call to the instance it needs and marks each expression with its dimensions
(`link_circuit`).

Buses are left out: no variable, field or argument is a bus.  A component is reached through
`port`, which stands for a variable with one `ComponentAccess`.  Positions in the source are
left out; of the memory knowledge of an expression only `concrete_dimensions` is kept.
-/

set_option linter.unusedVariables false

namespace Verif.Inst

/-- The dimensions of a value: `VCT` (`compiler/src/hir/very_concrete_program.rs:9`). -/
abbrev Vct := List Nat

/-- Expressions (`program_structure/src/abstract_syntax_tree/ast.rs`), each with the field
`concrete_dimensions` of its memory knowledge (`ast.rs:473`), `none` when not set.
`var` is a variable with the indices of its array accesses; `port c f pre post` is
`c[pre].f[post]`; `call` is the call of a function or of a template. -/
inductive Ex where
  | num (m : Option Vct) (v : Nat)
  | var (m : Option Vct) (name : String) (idx : List Ex)
  | port (m : Option Vct) (name field : String) (pre post : List Ex)
  | bin (m : Option Vct) (a b : Ex)
  | un (m : Option Vct) (a : Ex)
  | par (m : Option Vct) (a : Ex)
  | switch (m : Option Vct) (c a b : Ex)
  | call (m : Option Vct) (f : String) (args : List Ex)
  | arr (m : Option Vct) (vs : List Ex)
  | uni (m : Option Vct) (v d : Ex)

/-- `get_concrete_dimensions` without its panic (`ast.rs:488-494`). -/
def Ex.dims : Ex → Option Vct
  | .num m _ => m
  | .var m _ _ => m
  | .port m _ _ _ _ => m
  | .bin m _ _ => m
  | .un m _ => m
  | .par m _ => m
  | .switch m _ _ _ => m
  | .call m _ _ => m
  | .arr m _ => m
  | .uni m _ _ => m

/-- `set_concrete_dimensions` (`ast.rs:481-484`). -/
def Ex.mark (t : Vct) : Ex → Ex
  | .num _ v => .num (some t) v
  | .var _ n i => .var (some t) n i
  | .port _ n f i j => .port (some t) n f i j
  | .bin _ a b => .bin (some t) a b
  | .un _ a => .un (some t) a
  | .par _ a => .par (some t) a
  | .switch _ c a b => .switch (some t) c a b
  | .call _ f as => .call (some t) f as
  | .arr _ vs => .arr (some t) vs
  | .uni _ v d => .uni (some t) v d

/-- Statements (`ast.rs`).  `decl` carries the concrete dimensions of its memory knowledge, which
the execution of the program has set.  Of the accesses of a substitution only the indices are
kept.  `init` is an initialization block, `under` the statement `_ <== e`. -/
inductive Stm where
  | ret (e : Ex)
  | block (ss : List Stm)
  | init (ss : List Stm)
  | ifThen (c : Ex) (a : Stm)
  | ifElse (c : Ex) (a b : Stm)
  | loop (c : Ex) (s : Stm)
  | decl (name : String) (sizes : List Ex) (ty : Vct)
  | subst (name : String) (acc : List Ex) (e : Ex)
  | ceq (a b : Ex)
  | log (es : List Ex)
  | check (e : Ex)
  | under

/-- `GenericFunction` without the list of its instances, which is read off the list of all
instances (`compiler/src/hir/analysis_utilities.rs:17-22`). -/
structure Fn where
  name : String
  params : List String
  body : Stm

/-- `VCF` (`compiler/src/hir/very_concrete_program.rs:273-279`). -/
structure Vcf where
  name : String
  header : String
  params : List (String × Vct)
  ret : Vct
  body : Stm

/-- `VarEnvironment<VCT>` (`program_structure/src/utils/environment.rs:39-50`) with the table
`external_signals` of the dimensions of the signals of components
(`analysis_utilities.rs:25`): the innermost block, the others, the table. -/
structure Env where
  cur : List (String × Vct)
  outer : List (List (String × Vct))
  ports : List ((String × String) × Vct)

/-- `get_variable` (`environment.rs:163-170`): the innermost block first; in one block the last
value given to the name, which is put first here. -/
def Env.get (env : Env) (n : String) : Option Vct :=
  (env.cur :: env.outer).findSome? fun b => b.lookup n

/-- `add_variable` (`environment.rs:154-158`). -/
def Env.add (env : Env) (n : String) (t : Vct) : Env := { env with cur := (n, t) :: env.cur }

/-- `add_variable_block` (`environment.rs:147-149`). -/
def Env.push (env : Env) : Env := { env with cur := [], outer := env.cur :: env.outer }

/-- `remove_variable_block` (`environment.rs:150-153`).  It is called only after
`add_variable_block`, so the second case does not arise. -/
def Env.pop (env : Env) : Env :=
  match env.outer with
  | b :: bs => { env with cur := b, outer := bs }
  | [] => { env with cur := [], outer := [] }

/-- `build_environment` (`analysis_utilities.rs:159-168`). -/
def Env.start (ports : List ((String × String) × Vct)) (vars : List (String × Vct)) : Env :=
  vars.foldl (fun e p => e.add p.1 p.2) ⟨[], [], ports⟩

/-- `State` (`analysis_utilities.rs:24-30`): the functions and the instances so far.
`quick_knowledge` and `concrete_instances` are read off the instances. -/
structure St where
  fns : List Fn
  vcfs : List Vcf

/-- The panics: no instance (`unwrap` of `look_for_existing_instance`, `merger.rs:535` and 743), a
name without a value (`unwrap` of `get_variable` and of the tables), dimensions that do not fit
(an index out of range, or `unreachable`), a function whose result is not found
(`type_inference.rs:19`); `fuel` is not a panic: the search goes on. -/
inductive Fault where
  | missing | unknown | shape | noResult | fuel
deriving DecidableEq, Repr

/-- `generic_functions.get` (`analysis_utilities.rs:26`). -/
def St.fn (st : St) (f : String) : Option Fn := st.fns.find? fun g => g.name == f

/-- `quick_knowledge.get` (`merger.rs:70` and 737). -/
def St.quick (st : St) (h : String) : Option Vct :=
  (st.vcfs.find? fun v => v.header == h).map (·.ret)

/-- `look_for_existing_instance` (`merger.rs:76-90`): `concrete_instances` of the function are the
instances of its name in the order they were made (`merger.rs:61` and 72). -/
def St.find (st : St) (f : String) (ps : List (String × Vct)) : Option Vcf :=
  st.vcfs.find? fun v => v.name == f && v.params == ps

/-- The `while` loop of `map_to_params` over the dimensions already found
(`merger.rs:763-770`); `names[index]` panics when there are more arguments than names. -/
def named : List String → List Vct → Option (List (String × Vct))
  | _, [] => some []
  | [], _ :: _ => none
  | n :: ns, t :: ts => (named ns ts).map ((n, t) :: ·)

/-- The loop on `d` of `cast_type_array` (`merger.rs:713-715`): it panics when the new element has
more dimensions than the first. -/
def raise : Vct → Vct → Option Vct
  | t, [] => some t
  | [], _ :: _ => none
  | a :: t, b :: s => (raise t s).map (max a b :: ·)

/-- `cast_dimension` (`merger.rs:695-703`). -/
def size : Ex → Option Nat
  | .num _ v => if v < 2 ^ 64 then some v else none
  | _ => none

/-- An `unwrap` or a checked index: `none` is a panic. -/
def need {α : Type} (f : Fault) : Option α → Except Fault α
  | some a => .ok a
  | none => .error f

mutual
/-- `cast_type_expression` (`merger.rs:623-635`), `cast_type_variable` (637-693, without buses),
`cast_type_array` (706-732), `cast_type_call` (734-748), `cast_type_switch` (750-757).  An array in
line has at least one value (the grammar); `values[0]` is the panic of the other case. -/
def cast (st : St) (env : Env) : Ex → Except Fault Vct
  | .num _ _ => .ok []
  | .var _ n idx => do
      let t ← need .unknown (env.get n)
      return t.drop idx.length
  | .port _ n f _ post => do
      let t ← need .unknown (env.ports.lookup (n, f))
      return t.drop post.length
  | .bin _ _ _ => .ok []
  | .un _ _ => .ok []
  | .par _ _ => .ok []
  | .switch _ _ a _ => cast st env a
  | .call _ f args =>
      match st.quick f with
      | some r => .ok r
      | none =>
        match st.fn f with
        | none => .ok []
        | some fn => do
            let ts ← castAll st env args
            let ps ← need .shape (named fn.params ts)
            let v ← need .missing (st.find f ps)
            return v.ret
  | .arr _ [] => .error .shape
  | .arr _ (v :: vs) => do
      let t ← cast st env v
      let t ← widen st env t vs
      return (vs.length + 1) :: t
  | .uni _ v d => do
      let k ← need .shape (size d)
      let t ← cast st env v
      return k :: t

/-- The dimensions of the arguments, in `map_to_params` (`merger.rs:759-772`). -/
def castAll (st : St) (env : Env) : List Ex → Except Fault (List Vct)
  | [] => .ok []
  | e :: es => do
      let t ← cast st env e
      let ts ← castAll st env es
      return t :: ts

/-- The loop on `i` of `cast_type_array` (`merger.rs:711-716`). -/
def widen (st : St) (env : Env) (t : Vct) : List Ex → Except Fault Vct
  | [] => .ok t
  | e :: es => do
      let s ← cast st env e
      let t ← need .shape (raise t s)
      widen st env t es
end

/-- `map_to_params` (`merger.rs:759-772`). -/
def toParams (st : St) (env : Env) (fn : Fn) (args : List Ex) :
    Except Fault (List (String × Vct)) := do
  let ts ← castAll st env args
  need .shape (named fn.params ts)

/-! ## The dimensions a function returns -/

/-- `SearchInfo` (`type_inference.rs:7-10`). -/
structure Ctx where
  env : Env
  opened : List String

/-- `Vec`'s order, used by `std::cmp::max` (`type_inference.rs:84` and 125): the order of words. -/
def lexLe : Vct → Vct → Bool
  | [], _ => true
  | _ :: _, [] => false
  | a :: t, b :: s => a < b || (a == b && lexLe t s)

/-- `std::cmp::max` on dimensions. -/
def vmax (a b : Vct) : Vct := if lexLe a b then b else a

/-- The two results of a block or of a conditional put together (`type_inference.rs:80-87` and
121-128). -/
def join : Option Vct → Option Vct → Option Vct
  | none, r => r
  | some a, none => some a
  | some a, some b => some (vmax b a)

/-- The loop on `d` of `infer_type_array` (`type_inference.rs:224-226`): it panics when the new
element has fewer dimensions than the first. -/
def raiseI : Vct → Vct → Option Vct
  | [], _ => some []
  | _ :: _, [] => none
  | a :: t, b :: s => (raiseI t s).map (max a b :: ·)

mutual
/-- `infer_type_expresion` (`type_inference.rs:145-165`), `infer_type_switch` (167-179),
`infer_type_parallel` (181-188), `infer_type_variable` (190-198), `infer_type_array` (210-247),
`infer_type_call` (249-277).  `body` is `infer_type_stmt` on the body of a function.  The function
is opened and a block is added before the arguments are looked at, and neither is undone when an
argument has no dimensions (261-263). -/
def inferEx (fns : List Fn) (body : Fn → Ctx → Except Fault (Option Vct × Ctx)) :
    Ctx → Ex → Except Fault (Option Vct × Ctx)
  | c, .num _ _ => .ok (some [], c)
  | c, .var _ n idx => do
      let t ← need .unknown (c.env.get n)
      if t.length < idx.length then .error .shape else .ok (some (t.drop idx.length), c)
  | c, .port _ _ _ _ _ => .error .shape
  | c, .bin _ _ _ => .ok (some [], c)
  | c, .un _ _ => .ok (some [], c)
  | c, .par _ a => inferEx fns body c a
  | c, .switch _ _ a b => do
      let (r, c) ← inferEx fns body c a
      match r with
      | some t => .ok (some t, c)
      | none => inferEx fns body c b
  | c, .call _ f args =>
      if f ∈ c.opened then .ok (none, c)
      else do
        let fn ← need .unknown (fns.find? fun g => g.name == f)
        let (ts, c) ← inferArgs fns body ⟨c.env.push, f :: c.opened⟩ args
        match ts with
        | none => .ok (none, c)
        | some ts => do
            let ps ← need .shape (named fn.params ts)
            let (r, c) ← body fn { c with env := ps.foldl (fun e p => e.add p.1 p.2) c.env }
            .ok (r, ⟨c.env.pop, c.opened.filter (· ≠ f)⟩)
  | c, .arr _ [] => .error .shape
  | c, .arr _ (v :: vs) => do
      let (r, c) ← inferEx fns body c v
      match r with
      | none => .ok (none, c)
      | some t => do
          let (r, c) ← inferWiden fns body c t vs
          .ok (r.map ((vs.length + 1) :: ·), c)
  | c, .uni _ v d => do
      let k ← need .shape (size d)
      let (r, c) ← inferEx fns body c v
      .ok (r.map (k :: ·), c)

/-- `infer_args` (`type_inference.rs:279-294`). -/
def inferArgs (fns : List Fn) (body : Fn → Ctx → Except Fault (Option Vct × Ctx)) :
    Ctx → List Ex → Except Fault (Option (List Vct) × Ctx)
  | c, [] => .ok (some [], c)
  | c, e :: es => do
      let (r, c) ← inferEx fns body c e
      match r with
      | none => .ok (none, c)
      | some t => do
          let (ts, c) ← inferArgs fns body c es
          .ok (ts.map (t :: ·), c)

/-- The loop on `index` of `infer_type_array` (`type_inference.rs:219-227`). -/
def inferWiden (fns : List Fn) (body : Fn → Ctx → Except Fault (Option Vct × Ctx)) :
    Ctx → Vct → List Ex → Except Fault (Option Vct × Ctx)
  | c, t, [] => .ok (some t, c)
  | c, t, e :: es => do
      let (r, c) ← inferEx fns body c e
      match r with
      | none => .ok (none, c)
      | some s => do
          let t ← need .shape (raiseI t s)
          inferWiden fns body c t es
end

/-- The loop of `infer_type_init_block` (`type_inference.rs:97-109`): only the declarations. -/
def inferInit : Ctx → List Stm → Ctx
  | c, [] => c
  | c, .decl n _ ty :: ss => inferInit { c with env := c.env.add n ty } ss
  | c, _ :: ss => inferInit c ss

mutual
/-- `infer_type_stmt` (`type_inference.rs:22-46`), `infer_type_return` (48-55),
`infer_type_declaration` (57-70), `infer_type_block` (72-95), `infer_type_conditional` (111-134),
`infer_type_while` (136-143). -/
def inferSt (fns : List Fn) (body : Fn → Ctx → Except Fault (Option Vct × Ctx)) :
    Ctx → Stm → Except Fault (Option Vct × Ctx)
  | c, .ret e => inferEx fns body c e
  | c, .block ss => do
      let (r, c) ← inferSts fns body { c with env := c.env.push } none ss
      .ok (r, { c with env := c.env.pop })
  | c, .init ss => .ok (none, inferInit c ss)
  | c, .ifThen _ a => inferSt fns body c a
  | c, .ifElse _ a b => do
      let (r, c) ← inferSt fns body c a
      let (s, c) ← inferSt fns body c b
      .ok (join r s, c)
  | c, .loop _ s => inferSt fns body c s
  | c, .decl n _ ty => .ok (none, { c with env := c.env.add n ty })
  | c, .subst _ _ _ => .ok (none, c)
  | c, .ceq _ _ => .ok (none, c)
  | c, .log _ => .ok (none, c)
  | c, .check _ => .ok (none, c)
  | _, .under => .error .shape

/-- The `while` loop of `infer_type_block` (`type_inference.rs:78-89`). -/
def inferSts (fns : List Fn) (body : Fn → Ctx → Except Fault (Option Vct × Ctx)) :
    Ctx → Option Vct → List Stm → Except Fault (Option Vct × Ctx)
  | c, r, [] => .ok (r, c)
  | c, r, s :: ss => do
      let (n, c) ← inferSt fns body c s
      inferSts fns body c (join r n) ss
end

/-- `infer_type_stmt` on the body of a called function.  The number bounds the depth of the calls:
a function is not entered twice (`open_calls`), so the number of functions is enough. -/
def inferBody (fns : List Fn) : Nat → Fn → Ctx → Except Fault (Option Vct × Ctx)
  | 0, _, _ => .error .fuel
  | n + 1, fn, c => inferSt fns (inferBody fns n) c fn.body

/-- `infer_function_result` (`type_inference.rs:12-20`). -/
def inferResult (fns : List Fn) (fn : Fn) (ps : List (String × Vct)) : Except Fault Vct := do
  let (r, _) ← inferSt fns (inferBody fns fns.length) ⟨Env.start [] ps, [fn.name]⟩ fn.body
  need .noResult r

/-! ## Making the instances -/

/-- `format!("{}_{}", name, n)` (`merger.rs:65`). -/
def header (f : String) (n : Nat) : String := f ++ "_" ++ toString n

/-- `add_instance` (`merger.rs:56-74`). -/
def addInstance (st : St) (fn : Fn) (ps : List (String × Vct)) : Except Fault St :=
  match st.find fn.name ps with
  | some _ => .ok st
  | none => do
      let r ← inferResult st.fns fn ps
      return { st with vcfs := st.vcfs ++ [⟨fn.name, header fn.name st.vcfs.length, ps, r, fn.body⟩] }

mutual
/-- `produce_vcf_expr` (`merger.rs:121-144`), `produce_vcf_array` (261-273), `produce_vcf_call`
(274-287), `produce_vcf_variable` (300-312), `produce_vcf_switch` (314-322), `produce_vcf_infix`
(324-332), `produce_vcf_prefix` (334-341), `produce_vcf_parallel` (343-350).  The condition of a
`switch` is not looked at. -/
def prodEx (env : Env) : St → Ex → Except Fault St
  | st, .num _ _ => .ok st
  | st, .var _ _ idx => prodAll env st idx
  | st, .port _ _ _ pre post => do
      let st ← prodAll env st pre
      prodAll env st post
  | st, .bin _ a b => do
      let st ← prodEx env st a
      prodEx env st b
  | st, .un _ a => prodEx env st a
  | st, .par _ a => prodEx env st a
  | st, .switch _ _ a b => do
      let st ← prodEx env st a
      prodEx env st b
  | st, .call _ f args => do
      let st ← prodAll env st args
      match st.fn f with
      | none => .ok st
      | some fn => do
          let ps ← toParams st env fn args
          addInstance st fn ps
  | st, .arr _ vs => prodAll env st vs
  | st, .uni _ v d => do
      let st ← prodEx env st v
      prodEx env st d

/-- The loops over expressions of the same functions. -/
def prodAll (env : Env) : St → List Ex → Except Fault St
  | st, [] => .ok st
  | st, e :: es => do
      let st ← prodEx env st e
      prodAll env st es
end

mutual
/-- `produce_vcf_stmt` (`merger.rs:93-119`) and the functions for each statement (146-259). -/
def prodSt : Env → St → Stm → Except Fault (Env × St)
  | env, st, .ret e => do return (env, ← prodEx env st e)
  | env, st, .block ss => do
      let (e, st) ← prodSts env.push st ss
      return (e.pop, st)
  | env, st, .init ss => prodSts env st ss
  | env, st, .ifThen c a => do
      let st ← prodEx env st c
      prodSt env st a
  | env, st, .ifElse c a b => do
      let st ← prodEx env st c
      let (env, st) ← prodSt env st a
      prodSt env st b
  | env, st, .loop c s => do
      let st ← prodEx env st c
      prodSt env st s
  | env, st, .decl n sizes ty => do
      let st ← prodAll env st sizes
      return (env.add n ty, st)
  | env, st, .subst _ acc e => do
      let st ← prodEx env st e
      return (env, ← prodAll env st acc)
  | env, st, .ceq a b => do
      let st ← prodEx env st a
      return (env, ← prodEx env st b)
  | env, st, .log es => do return (env, ← prodAll env st es)
  | env, st, .check e => do return (env, ← prodEx env st e)
  | env, st, .under => .ok (env, st)

/-- The loops over statements of the same functions. -/
def prodSts : Env → St → List Stm → Except Fault (Env × St)
  | env, st, [] => .ok (env, st)
  | env, st, s :: ss => do
      let (env, st) ← prodSt env st s
      prodSts env st ss
end

/-- What is read of a template instance: the dimensions of its constants (`header`), those of the
signals of its components (`triggers`) and its code
(`compiler/src/hir/very_concrete_program.rs`). -/
structure Tmpl where
  consts : List (String × Vct)
  ports : List ((String × String) × Vct)
  code : Stm

/-- The first loop of `produce_vcf` (`merger.rs:21-29`). -/
def prodTmpls : St → List Tmpl → Except Fault St
  | st, [] => .ok st
  | st, t :: ts => do
      let (_, st) ← prodSt (Env.start t.ports t.consts) st t.code
      prodTmpls st ts

/-- The second loop of `produce_vcf` (`merger.rs:30-37`): it goes on while there are instances it
has not looked at.  The number bounds the rounds. -/
def work : Nat → Nat → St → Except Fault St
  | 0, _, _ => .error .fuel
  | n + 1, i, st =>
    match st.vcfs[i]? with
    | none => .ok st
    | some v => do
        let (_, st) ← prodSt (Env.start [] v.params) st v.body
        work n (i + 1) st

/-! ## Linking -/

/-- The last lines of `link_expression` (`merger.rs:523-524`). -/
def stamp (st : St) (env : Env) (e : Ex) : Except Fault Ex := do
  let t ← cast st env e
  return e.mark t

mutual
/-- `link_expression` (`merger.rs:501-525`), `link_call` (527-541), `link_array` (554-566),
`link_variable` (568-579), `link_switch` (581-589), `link_infix` (593-601), `link_prefix`
(603-610), `link_parallel` (612-619).  The condition of a `switch` stays as it is. -/
def linkEx (st : St) (env : Env) : Ex → Except Fault Ex
  | .num m v => stamp st env (.num m v)
  | .var m n idx => do stamp st env (.var m n (← linkAll st env idx))
  | .port m n f pre post => do
      let pre ← linkAll st env pre
      let post ← linkAll st env post
      stamp st env (.port m n f pre post)
  | .bin m a b => do
      let a ← linkEx st env a
      let b ← linkEx st env b
      stamp st env (.bin m a b)
  | .un m a => do stamp st env (.un m (← linkEx st env a))
  | .par m a => do stamp st env (.par m (← linkEx st env a))
  | .switch m c a b => do
      let a ← linkEx st env a
      let b ← linkEx st env b
      stamp st env (.switch m c a b)
  | .call m f args => do
      let args ← linkAll st env args
      match st.fn f with
      | none => stamp st env (.call m f args)
      | some fn => do
          let ps ← toParams st env fn args
          let v ← need .missing (st.find f ps)
          stamp st env (.call m v.header args)
  | .arr m vs => do stamp st env (.arr m (← linkAll st env vs))
  | .uni m v d => do
      let v ← linkEx st env v
      let d ← linkEx st env d
      stamp st env (.uni m v d)

/-- The loops over expressions of the same functions. -/
def linkAll (st : St) (env : Env) : List Ex → Except Fault (List Ex)
  | [] => .ok []
  | e :: es => do
      let e ← linkEx st env e
      let es ← linkAll st env es
      return e :: es
end

mutual
/-- `link_stmt` (`merger.rs:360-386`) and the functions for each statement (388-499). -/
def linkSt (st : St) : Env → Stm → Except Fault (Env × Stm)
  | env, .ret e => do return (env, .ret (← linkEx st env e))
  | env, .block ss => do
      let (e, ss) ← linkSts st env.push ss
      return (e.pop, .block ss)
  | env, .init ss => do
      let (env, ss) ← linkSts st env ss
      return (env, .init ss)
  | env, .ifThen c a => do
      let c ← linkEx st env c
      let (env, a) ← linkSt st env a
      return (env, .ifThen c a)
  | env, .ifElse c a b => do
      let c ← linkEx st env c
      let (env, a) ← linkSt st env a
      let (env, b) ← linkSt st env b
      return (env, .ifElse c a b)
  | env, .loop c s => do
      let c ← linkEx st env c
      let (env, s) ← linkSt st env s
      return (env, .loop c s)
  | env, .decl n sizes ty => do
      let sizes ← linkAll st env sizes
      return (env.add n ty, .decl n sizes ty)
  | env, .subst n acc e => do
      let e ← linkEx st env e
      let acc ← linkAll st env acc
      return (env, .subst n acc e)
  | env, .ceq a b => do
      let a ← linkEx st env a
      let b ← linkEx st env b
      return (env, .ceq a b)
  | env, .log es => do return (env, .log (← linkAll st env es))
  | env, .check e => do return (env, .check (← linkEx st env e))
  | env, .under => .ok (env, .under)

/-- The loops over statements of the same functions. -/
def linkSts (st : St) : Env → List Stm → Except Fault (Env × List Stm)
  | env, [] => .ok (env, [])
  | env, s :: ss => do
      let (env, s) ← linkSt st env s
      let (env, ss) ← linkSts st env ss
      return (env, s :: ss)
end

/-- The first loop of `link_circuit` (`merger.rs:41-46`). -/
def linkTmpls (st : St) : List Tmpl → Except Fault (List Tmpl)
  | [] => .ok []
  | t :: ts => do
      let (_, s) ← linkSt st (Env.start t.ports t.consts) t.code
      let ts ← linkTmpls st ts
      return { t with code := s } :: ts

/-- The second loop of `link_circuit` (`merger.rs:47-52`). -/
def linkVcfs (st : St) : List Vcf → Except Fault (List Vcf)
  | [] => .ok []
  | v :: vs => do
      let (_, s) ← linkSt st (Env.start [] v.params) v.body
      let vs ← linkVcfs st vs
      return { v with body := s } :: vs

/-- `produce_vcf` (`merger.rs:20-38`), with a bound on the rounds of its second loop. -/
def produce (n : Nat) (fns : List Fn) (ts : List Tmpl) : Except Fault St := do
  let st ← prodTmpls ⟨fns, []⟩ ts
  work n 0 st

/-- `link_circuit` (`merger.rs:40-53`): the templates and the instances. -/
def link (st : St) (ts : List Tmpl) : Except Fault (List Tmpl × List Vcf) := do
  let ts ← linkTmpls st ts
  let vs ← linkVcfs st st.vcfs
  return (ts, vs)

/-- The first lines of `run_preprocessing` (`merger.rs:10-15`).  What follows, the removal of
components (`component_preprocess.rs`) and of sugar (`sugar_cleaner.rs`), is not here. -/
def merge (n : Nat) (fns : List Fn) (ts : List Tmpl) : Except Fault (List Tmpl × List Vcf) := do
  let st ← produce n fns ts
  link st ts

end Verif.Inst
