import Verif.Grammar

/-!
# A parser for the grammar, used in the proofs

The parser is a device of the proofs, not a model of code: what is proved about the rules (`D`, the model of `lang.lalrpop`) is proved by
showing that this parser, given enough steps, finds any tree that the rules give.
-/

set_option linter.unusedSimpArgs false
set_option linter.unusedVariables false

namespace Verif.Grammar

/-- What is parsed: a non-terminal, or the rest of a chain of operators of a tier. -/
inductive G where
  | n (s : Nt)
  | loop (k : Nat) (acc : Node)
  | dhdr

abbrev Res := Option (Node × List Tok)

/-- The next token must be this one. -/
def want (t : Tok) : List Tok → Option (List Tok)
  | x :: r => if x = t then some r else none
  | [] => none

/-- After a value, a token. -/
def closing (t : Tok) (x : Res) (g : Node → Node) : Res := x.bind fun (v, r) => (want t r).map fun r => (g v, r)

section
variable (p : Nat) (ni : Bool) (f : G → List Tok → Res)

def pAccs : List Tok → Res
  | .lbr :: r => (f (.n .exp) r).bind fun (e, r) => (want .rbr r).bind fun r => (f (.n .accs) r).map fun (a, r) => (.cons (.idx e) a, r)
  | .dot :: .id x :: r => (f (.n .accs) r).map fun (a, r) => (.cons (.fld x) a, r)
  | ts => some (.nil, ts)

def pVari : List Tok → Res
  | .id x :: r => (f (.n .accs) r).map fun (a, r) => (.var x a, r)
  | _ => none

def pList (ts : List Tok) : Res :=
  (f (.n .exp) ts).bind fun (e, r) =>
    match r with
    | .comma :: r => (f (.n .list) r).map fun (l, r) => (.cons e l, r)
    | r => some (.cons e .nil, r)

def pOpt (ts : List Tok) : Res :=
  match ts with
  | .rpar :: _ => some (.nil, ts)
  | _ => f (.n .list) ts

def pNamed (ts : List Tok) : Res :=
  match ts with
  | .id x :: .assign a :: r =>
    (f (.n .exp) r).bind fun (e, r) =>
      match r with
      | .comma :: r => (f (.n .named) r).bind fun (l, r) =>
        match l with
        | .args (some ns) es => some (.args (some ((a, x) :: ns)) (.cons e es), r)
        | _ => none
      | r => some (.args (some [(a, x)]) (.cons e .nil), r)
  | _ => none

def pAnon (ts : List Tok) : Res :=
  match ts with
  | .rpar :: _ => some (.args none .nil, ts)
  | .id _ :: .assign _ :: _ => f (.n .named) ts
  | _ => (f (.n .list) ts).map fun (l, r) => (.args none l, r)

def pT0 (ts : List Tok) : Res :=
  match ts with
  | .id _ :: _ => f (.n .vari) ts
  | .under :: r => some (.var "_" .nil, r)
  | .num n :: r => some (.num (n % p), r)
  | .hex n :: r => some (.num (n % p), r)
  | .lpar :: r => closing .rpar (f (.n .exp) r) id
  | _ => none

def pT1 (ts : List Tok) : Res :=
  match ts with
  | .id x :: .lpar :: r =>
    (f (.n .opt) r).bind fun (a, r) => (want .rpar r).bind fun r =>
      match r with
      | .lpar :: r => (f (.n .anonArgs) r).bind fun (l, r) =>
        match l with
        | .args ns ss => (want .rpar r).map fun r => (.anon x a ns ss, r)
        | _ => none
      | r => some (.call x a, r)
  | .lbr :: r => closing .rbr (f (.n .list) r) .array
  | .lpar :: r =>
    match f (.n .t0) ts with
    | some v => some v
    | none => (f (.n .exp) r).bind fun (e, r) => (want .comma r).bind fun r => closing .rpar (f (.n .list) r) fun l => .tuple (.cons e l)
  | _ => f (.n .t0) ts

def pT2 (ts : List Tok) : Res :=
  match ts with
  | .bang :: r => (f (.n .t1) r).map fun (e, r) => (.pre .not e, r)
  | .tilde :: r => (f (.n .t1) r).map fun (e, r) => (.pre .compl e, r)
  | .op .sub :: r => (f (.n .t1) r).map fun (e, r) => (.pre .sub e, r)
  | _ => f (.n .t1) ts

def pTier (k : Nat) (ts : List Tok) : Res := (f (.n (below k)) ts).bind fun (e, r) => f (.loop k e) r

def pLoop (k : Nat) (acc : Node) (ts : List Tok) : Res :=
  match ts with
  | .op o :: r => if tierOf o = k then (f (.n (below k)) r).bind fun (b, r) => f (.loop k (.inf o acc b)) r else some (acc, ts)
  | _ => some (acc, ts)

def pExp1 (ts : List Tok) : Res :=
  (f (.n (.tier 12)) ts).bind fun (c, r) =>
    match r with
    | .quest :: r => (f (.n (.tier 12)) r).bind fun (a, r) => (want .colon r).bind fun r => (f (.n (.tier 12)) r).map fun (b, r) => (.switch c a b, r)
    | r => some (c, r)

def pExp (ts : List Tok) : Res :=
  match ts with
  | .kw .parallel :: r => (f (.n .exp1) r).map fun (e, r) => (.par e, r)
  | _ => f (.n .exp1) ts

def pShort (ts : List Tok) (e : Node) : Option (String × Node) :=
  match ts, e with
  | .id _ :: _, .var x acc => some (x, acc)
  | _, _ => none

def pSubst (ts : List Tok) : Res :=
  (f (.n .exp) ts).bind fun (e, r) =>
    match r with
    | .assign a :: r => (f (.n .exp) r).map fun (v, r) => (mkSub e a v, r)
    | .right a :: r => if a = .var then none else (f (.n .exp) r).map fun (v, r) => (mkSub v a e, r)
    | .opEq o :: r =>
      if shortcut o = true then (pShort ts e).bind fun (x, acc) => (f (.n .exp) r).map fun (v, r) => (mkShort x acc o v, r) else none
    | .pp :: r => (pShort ts e).map fun (x, acc) => (mkShort x acc .add (.num (1 % p)), r)
    | .mm :: r => (pShort ts e).map fun (x, acc) => (mkShort x acc .sub (.num (1 % p)), r)
    | _ => none

def pStmt (ts : List Tok) : Res :=
  match ts with
  | .kw .if_ :: .lpar :: r =>
    (f (.n .exp) r).bind fun (c, r) => (want .rpar r).bind fun r => (f (.n .stmt0) r).bind fun (v, r) =>
      match r with
      | .kw .else_ :: r => (f (.n .stmt0) r).map fun (w, r) => (.ite c v w, r)
      | r => some (.ift c v, r)
  | _ => f (.n .s2) ts

def pFor (r : List Tok) : Res :=
  (match f (.n .decl) r with
    | some v => some v
    | none => f (.n .subst) r).bind fun (i, r) => (want .semi r).bind fun r => (f (.n .exp) r).bind fun (c, r) => (want .semi r).bind fun r =>
  (f (.n .subst) r).bind fun (s, r) => (want .rpar r).bind fun r => (f (.n .s2) r).map fun (b, r) => (mkFor i c s b, r)

def pS2 (ts : List Tok) : Res :=
  match ts with
  | .kw .for_ :: .lpar :: r => pFor f r
  | .kw .while_ :: .lpar :: r => (f (.n .exp) r).bind fun (c, r) => (want .rpar r).bind fun r => (f (.n .s2) r).map fun (b, r) => (.whil c b, r)
  | .kw .return_ :: r => closing .semi (f (.n .exp) r) .ret
  | .kw .log :: .lpar :: .rpar :: .semi :: r => some (.log .nil, r)
  | .kw .log :: .lpar :: r => (f (.n .logArgs) r).bind fun (l, r) => (want .rpar r).bind fun r => (want .semi r).map fun r => (.log l, r)
  | .kw .assert :: .lpar :: r => (f (.n .exp) r).bind fun (e, r) => (want .rpar r).bind fun r => (want .semi r).map fun r => (.assert e, r)
  | .lcb :: _ => f (.n .block) ts
  | _ =>
    match f (.n .subst) ts with
    | some v => closing .semi (some v) id
    | none => (f (.n .exp) ts).bind fun (a, r) =>
      match r with
      | .eqq :: r => closing .semi (f (.n .exp) r) (.eqc a)
      | .semi :: r =>
        match a with
        | .anon x ps ns ss => some (.msub (.tuple .nil) .con (.anon x ps ns ss), r)
        | _ => none
      | _ => none

def pBlock (ts : List Tok) : Res :=
  match ts with
  | .lcb :: r => closing .rcb (f (.n .stmts) r) .block
  | _ => none

def pS3 (ts : List Tok) : Res :=
  match f (.n .decl) ts with
  | some v => closing .semi (some v) id
  | none => f (.n .stmt0) ts

def pStmts (ts : List Tok) : Res :=
  match ts with
  | .rcb :: _ => some (.nil, ts)
  | _ => (f (.n .s3) ts).bind fun (v, r) => (f (.n .stmts) r).map fun (l, r) => (.cons v l, r)

def pLogArgs (ts : List Tok) : Res :=
  match ts with
  | .str s :: r => (splitString s).bind fun ss =>
    match r with
    | .comma :: r => (f (.n .logArgs) r).map fun (l, r) => (texts ss l, r)
    | r => some (texts ss .nil, r)
  | _ => (f (.n .exp) ts).bind fun (e, r) =>
    match r with
    | .comma :: r => (f (.n .logArgs) r).map fun (l, r) => (.cons e l, r)
    | r => some (.cons e .nil, r)

def pIds (ts : List Tok) : Res :=
  match ts with
  | .id x :: .comma :: r => (f (.n .ids) r).bind fun (l, r) =>
    match l with
    | .strs l => some (.strs (x :: l), r)
    | _ => none
  | .id x :: r => some (.strs [x], r)
  | _ => none

def pTags (ts : List Tok) : Res :=
  match ts with
  | .lcb :: r => closing .rcb (f (.n .ids) r) id
  | _ => some (.strs [], ts)

/-- A word for the kind of a signal, if there is one. -/
def pSig (ts : List Tok) : SigType × List Tok :=
  match ts with
  | .kw .input :: r => (.input, r)
  | .kw .output :: r => (.output, r)
  | _ => (.intermediate, ts)

def withTags (x : Res) (g : List String → Node) : Res :=
  x.bind fun (l, r) =>
    match l with
    | .strs l => some (g l, r)
    | _ => none

def pHdr (ts : List Tok) : Res :=
  match ts with
  | .kw .signal :: r => withTags (f (.n .tags) (pSig r).2) fun l => .ty (.signal (pSig r).1 l) .nil
  | .kw .input :: .kw .signal :: r => withTags (f (.n .tags) r) fun l => .ty (.signal .input l) .nil
  | .kw .output :: .kw .signal :: r => withTags (f (.n .tags) r) fun l => .ty (.signal .output l) .nil
  | _ => none

/-- The call of a bus, then the rest of its header. -/
def pBusId (x : String) (r : List Tok) (g : Node → List Tok → Res) : Res :=
  match r with
  | .lpar :: r => (f (.n .opt) r).bind fun (a, r) => (want .rpar r).bind fun r => g a r
  | r => g .nil r

def pBusHdr (ts : List Tok) : Res :=
  match ts with
  | .id x :: r => pBusId f x r fun a r => withTags (f (.n .tags) (pSig r).2) fun l => .ty (.bus x (pSig r).1 l) (.busCall x a)
  | .kw .input :: .id x :: r => pBusId f x r fun a r => withTags (f (.n .tags) r) fun l => .ty (.bus x .input l) (.busCall x a)
  | .kw .output :: .id x :: r => pBusId f x r fun a r => withTags (f (.n .tags) r) fun l => .ty (.bus x .output l) (.busCall x a)
  | _ => none

def pDims (ts : List Tok) : Res :=
  match ts with
  | .lbr :: r => (f (.n .exp) r).bind fun (e, r) => (want .rbr r).bind fun r => (f (.n .dims) r).map fun (l, r) => (.cons e l, r)
  | _ => some (.nil, ts)

def pSym (ts : List Tok) : Res :=
  match ts with
  | .id x :: r => (f (.n .dims) r).bind fun (l, r) =>
    match r with
    | .assign a :: r => (f (.n .exp) r).map fun (e, r) => (.symInit x l a e, r)
    | r => some (.sym x l, r)
  | _ => none

def pSyms (ts : List Tok) : Res :=
  (f (.n .sym) ts).bind fun (v, r) =>
    match r with
    | .comma :: r => (f (.n .syms) r).map fun (l, r) => (.cons v l, r)
    | r => some (.cons v .nil, r)

def pTinit (ts : List Tok) : Res :=
  match ts with
  | .assign a :: r => (f (.n .exp) r).map fun (e, r) => (.msub .nil a e, r)
  | _ => none

/-- The header of a declaration. -/
def pDhdr (ts : List Tok) : Res :=
  match ts with
  | .kw .var :: r => some (.ty .var .nil, r)
  | .kw .component :: r => some (.ty .component .nil, r)
  | .kw .signal :: _ => f (.n .hdr) ts
  | .kw .input :: .kw .signal :: _ => f (.n .hdr) ts
  | .kw .output :: .kw .signal :: _ => f (.n .hdr) ts
  | _ => f (.n .busHdr) ts

/-- What a declaration without parentheses makes of its symbols. -/
def finish (ni : Bool) (t : VType) (b l : Node) : Option Node :=
  match t with
  | .var | .component => if kinds true (some .var) l = true then some (.init t (splitDecl ni t .var l)) else none
  | .signal _ _ =>
    if kinds true (some .con) l = true then some (.init t (splitDecl ni t .con l))
    else if kinds false (some .sig) l = true then some (.init t (splitDecl ni t .sig l)) else none
  | .bus _ _ _ =>
    if kinds true (some .con) l = true then some (.init t (splitBus b t .con l))
    else if kinds false (some .sig) l = true then some (.init t (splitBus b t .sig l)) else none

/-- A declaration after its header. -/
def pBody (t : VType) (b : Node) (r : List Tok) : Res :=
  match b, r with
  | .nil, .lpar :: r =>
    (f (.n .syms) r).bind fun (l, r) => (want .rpar r).bind fun r =>
      if kinds true none l = true then
        match r with
        | .assign a :: _ => (f (.n .tinit) r).bind fun (i, r) =>
          match i with
          | .msub .nil a e => some (.init t (app (tupleDecls ni t true l) (.cons (tupleSub (symVars l) a e) .nil)), r)
          | _ => none
        | r => some (.init t (tupleDecls ni t false l), r)
      else none
  | b, r => (f (.n .syms) r).bind fun (l, r) => (finish ni t b l).map fun v => (v, r)

def pDecl (ts : List Tok) : Res :=
  (f .dhdr ts).bind fun (h, r) =>
    match h with
    | .ty t b => pBody ni f t b r
    | _ => none

def pParams (ts : List Tok) : Res :=
  match ts with
  | .lpar :: .rpar :: r => some (.strs [], r)
  | .lpar :: r => closing .rpar (f (.n .ids) r) id
  | _ => none

def pOparams (ts : List Tok) : Res :=
  match ts with
  | .lpar :: _ => f (.n .params) ts
  | _ => some (.strs [], ts)

/-- A word that may be there. -/
def pFlag (k : Kw) (ts : List Tok) : Bool × List Tok :=
  match ts with
  | .kw k' :: r => if k' = k then (true, r) else (false, ts)
  | _ => (false, ts)

def pDefn (ts : List Tok) : Res :=
  match ts with
  | .kw .function :: .id x :: r => (f (.n .params) r).bind fun (l, r) => (f (.n .block) r).bind fun (b, r) =>
    match l with
    | .strs l => some (.fn x l b, r)
    | _ => none
  | .kw .template :: r =>
    let (cu, r) := pFlag .custom r
    let (ex, r) := pFlag .externC r
    let (pa, r) := pFlag .parallel r
    match r with
    | .id x :: r => (f (.n .oparams) r).bind fun (l, r) => (f (.n .block) r).bind fun (b, r) =>
      match l with
      | .strs l => some (.templ x l b pa cu ex, r)
      | _ => none
    | _ => none
  | .kw .bus :: .id x :: r => (f (.n .oparams) r).bind fun (l, r) => (f (.n .block) r).bind fun (b, r) =>
    match l with
    | .strs l => some (.busDef x l b, r)
    | _ => none
  | _ => none

def pDefns (ts : List Tok) : Res :=
  match ts with
  | .kw .function :: _ | .kw .template :: _ | .kw .bus :: _ =>
    (f (.n .defn) ts).bind fun (d, r) => (f (.n .defns) r).map fun (l, r) => (.cons d l, r)
  | _ => some (.nil, ts)

def pMain (ts : List Tok) : Res :=
  match ts with
  | .kw .component :: .kw .main :: .assign .var :: r => closing .semi (f (.n .exp) r) (.main [])
  | .kw .component :: .kw .main :: .lcb :: .kw .public_ :: .lbr :: r =>
    (f (.n .ids) r).bind fun (l, r) => (want .rbr r).bind fun r => (want .rcb r).bind fun r => (want (.assign .var) r).bind fun r =>
      match l with
      | .strs l => closing .semi (f (.n .exp) r) (.main l)
      | _ => none
  | [] => some (.nil, [])
  | _ => none

def pPragmas (ts : List Tok) : Res :=
  match ts with
  | .kw .pragma :: .kw .circom :: .num a :: .dot :: .num b :: .dot :: .num c :: .semi :: r =>
    if a < 2 ^ 64 ∧ b < 2 ^ 64 ∧ c < 2 ^ 64 then (f (.n .pragmas) r).map fun (l, r) => (.cons (.version a b c) l, r) else none
  | .kw .pragma :: .kw .customTemplates :: .semi :: r => (f (.n .pragmas) r).map fun (l, r) => (.cons .customGates l, r)
  | .kw .pragma :: _ => none
  | _ => some (.nil, ts)

def pIncludes (ts : List Tok) : Res :=
  match ts with
  | .kw .include :: .str s :: .semi :: r => (f (.n .includes) r).bind fun (l, r) =>
    match l with
    | .strs l => some (.strs (s :: l), r)
    | _ => none
  | .kw .include :: _ => none
  | _ => some (.strs [], ts)

def pFile (ts : List Tok) : Res :=
  (f (.n .pragmas) ts).bind fun (ps, r) => (f (.n .includes) r).bind fun (is, r) => (f (.n .defns) r).bind fun (ds, r) =>
    (f (.n .main) r).bind fun (m, r) =>
      match is with
      | .strs l => some (.file ps l ds m, r)
      | _ => none

/-- One step. -/
def step : G → List Tok → Res
  | .loop k acc => pLoop f k acc
  | .dhdr => pDhdr f
  | .n .exp => pExp f
  | .n .exp1 => pExp1 f
  | .n (.tier k) => pTier f k
  | .n .t2 => pT2 f
  | .n .t1 => pT1 f
  | .n .t0 => pT0 p f
  | .n .accs => pAccs f
  | .n .vari => pVari f
  | .n .list => pList f
  | .n .opt => pOpt f
  | .n .named => pNamed f
  | .n .anonArgs => pAnon f
  | .n .subst => pSubst p f
  | .n .stmt0 | .n .nb | .n .s1 => pStmt f
  | .n .s2 => pS2 f
  | .n .s3 => pS3 f
  | .n .stmts => pStmts f
  | .n .block => pBlock f
  | .n .logArgs => pLogArgs f
  | .n .ids => pIds f
  | .n .tags => pTags f
  | .n .dims => pDims f
  | .n .sym => pSym f
  | .n .syms => pSyms f
  | .n .hdr => pHdr f
  | .n .busHdr => pBusHdr f
  | .n .tinit => pTinit f
  | .n .decl => pDecl ni f
  | .n .params => pParams f
  | .n .oparams => pOparams f
  | .n .defn => pDefn f
  | .n .defns => pDefns f
  | .n .main => pMain f
  | .n .pragmas => pPragmas f
  | .n .includes => pIncludes f
  | .n .file => pFile f

end

/-- The parser, with a number of steps. -/
def P (p : Nat) (ni : Bool) : Nat → G → List Tok → Res
  | 0, _, _ => none
  | n + 1, s, ts => step p ni (P p ni n) s ts

/-- With enough steps the parser gives this. -/
def Ok (p : Nat) (ni : Bool) (s : G) (ts : List Tok) (v : Node) (r : List Tok) : Prop :=
  ∃ n, ∀ m, n ≤ m → P p ni m s ts = some (v, r)

/-- With enough steps the parser gives nothing. -/
def Fail (p : Nat) (ni : Bool) (s : G) (ts : List Tok) : Prop := ∃ n, ∀ m, n ≤ m → P p ni m s ts = none

/-- Enough steps, whatever they are. -/
def Big (p : Nat) (ni : Bool) (A : (G → List Tok → Res) → Prop) : Prop := ∃ n, ∀ m, n ≤ m → A (P p ni m)

section
variable {p : Nat} {ni : Bool}

theorem Big.and {A B : (G → List Tok → Res) → Prop} (a : Big p ni A) (b : Big p ni B) : Big p ni fun f => A f ∧ B f := by
  obtain ⟨n, hn⟩ := a
  obtain ⟨n', hn'⟩ := b
  exact ⟨n + n', fun m h => ⟨hn m (by omega), hn' m (by omega)⟩⟩

theorem Big.ok {A : (G → List Tok → Res) → Prop} {s ts v r} (a : Big p ni A) (h : ∀ f, A f → step p ni f s ts = some (v, r)) :
    Ok p ni s ts v r := by
  obtain ⟨n, hn⟩ := a
  refine ⟨n + 1, fun m hm => ?_⟩
  obtain ⟨m, rfl⟩ : ∃ k, m = k + 1 := ⟨m - 1, by omega⟩
  exact h _ (hn m (by omega))

theorem Big.fail {A : (G → List Tok → Res) → Prop} {s ts} (a : Big p ni A) (h : ∀ f, A f → step p ni f s ts = none) :
    Fail p ni s ts := by
  obtain ⟨n, hn⟩ := a
  refine ⟨n + 1, fun m hm => ?_⟩
  obtain ⟨m, rfl⟩ : ∃ k, m = k + 1 := ⟨m - 1, by omega⟩
  exact h _ (hn m (by omega))

theorem Ok.big {s ts v r} (h : Ok p ni s ts v r) : Big p ni fun f => f s ts = some (v, r) := h
theorem Fail.big {s ts} (h : Fail p ni s ts) : Big p ni fun f => f s ts = none := h
theorem big_true : Big p ni fun _ => True := ⟨0, fun _ _ => trivial⟩

theorem ok0 {s ts v r} (h : ∀ f, step p ni f s ts = some (v, r)) : Ok p ni s ts v r := big_true.ok fun f _ => h f
theorem ok1 {s ts v r s1 t1 v1 r1} (a : Ok p ni s1 t1 v1 r1) (h : ∀ f, f s1 t1 = some (v1, r1) → step p ni f s ts = some (v, r)) :
    Ok p ni s ts v r := a.big.ok h
theorem ok2 {s ts v r s1 t1 v1 r1 s2 t2 v2 r2} (a : Ok p ni s1 t1 v1 r1) (b : Ok p ni s2 t2 v2 r2)
    (h : ∀ f, f s1 t1 = some (v1, r1) → f s2 t2 = some (v2, r2) → step p ni f s ts = some (v, r)) : Ok p ni s ts v r :=
  (a.big.and b.big).ok fun f x => h f x.1 x.2
theorem ok3 {s ts v r s1 t1 v1 r1 s2 t2 v2 r2 s3 t3 v3 r3} (a : Ok p ni s1 t1 v1 r1) (b : Ok p ni s2 t2 v2 r2) (c : Ok p ni s3 t3 v3 r3)
    (h : ∀ f, f s1 t1 = some (v1, r1) → f s2 t2 = some (v2, r2) → f s3 t3 = some (v3, r3) → step p ni f s ts = some (v, r)) :
    Ok p ni s ts v r :=
  ((a.big.and b.big).and c.big).ok fun f x => h f x.1.1 x.1.2 x.2
theorem ok4 {s ts v r s1 t1 v1 r1 s2 t2 v2 r2 s3 t3 v3 r3 s4 t4 v4 r4} (a : Ok p ni s1 t1 v1 r1) (b : Ok p ni s2 t2 v2 r2)
    (c : Ok p ni s3 t3 v3 r3) (d : Ok p ni s4 t4 v4 r4)
    (h : ∀ f, f s1 t1 = some (v1, r1) → f s2 t2 = some (v2, r2) → f s3 t3 = some (v3, r3) → f s4 t4 = some (v4, r4) →
      step p ni f s ts = some (v, r)) : Ok p ni s ts v r :=
  (((a.big.and b.big).and c.big).and d.big).ok fun f x => h f x.1.1.1 x.1.1.2 x.1.2 x.2

/-- Two results of the parser are the same. -/
theorem Ok.inj {s ts v r v' r'} (a : Ok p ni s ts v r) (b : Ok p ni s ts v' r') : v = v' ∧ r = r' := by
  obtain ⟨n, hn⟩ := a
  obtain ⟨n', hn'⟩ := b
  have h := (hn (n + n') (by omega)).symm.trans (hn' (n + n') (by omega))
  simpa using h

theorem Ok.not_fail {s ts v r} (a : Ok p ni s ts v r) (b : Fail p ni s ts) : False := by
  obtain ⟨n, hn⟩ := a
  obtain ⟨n', hn'⟩ := b
  have h := (hn (n + n') (by omega)).symm.trans (hn' (n + n') (by omega))
  cases h

end

end Verif.Grammar
