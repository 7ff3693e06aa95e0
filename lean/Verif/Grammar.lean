/-!
# The grammar of the language

`/repo/parser/src/lang.lalrpop`, from tokens on: which trees the rules give to a sequence of tokens, with the constructions of
`/repo/program_structure/src/abstract_syntax_tree/{ast_shortcuts,expression_builders,statement_builders}.rs`.

A sequence of tokens may have any number of trees here (`D` is a relation); that it has at most one is proved.  Simplifications: positions
(`Meta`) are left out; the alternatives that report an error (`!`, a missing semicolon, `++x`, an expression that is no call as a
statement) are left out, so a sequence of tokens that is only accepted with an error has no tree; repetitions are written from the
right.  The parser that LALRPOP makes of the rules is taken to give a sequence of tokens its tree.
-/

namespace Verif.Grammar

/-- `ExpressionInfixOpcode` (ast.rs:368-389). -/
inductive Infix where
  | mul | div | add | sub | pow | intDiv | mod | shiftL | shiftR | le | ge | lt | gt | eq | ne | or | and | bitOr | bitAnd | bitXor
  deriving DecidableEq, Repr

/-- `ExpressionPrefixOpcode` (ast.rs:392-396). -/
inductive Prefix where
  | sub | not | compl
  deriving DecidableEq, Repr

/-- `AssignOp` (ast.rs:361-365): `=`, `<--`, `<==`. -/
inductive AOp where
  | var | sig | con
  deriving DecidableEq, Repr

/-- Words of the language that are used here (the literals of lang.lalrpop:44-863). -/
inductive Kw where
  | parallel | if_ | else_ | for_ | while_ | return_ | log | assert | var | component | signal | input | output | function | template
  | bus | main | public_ | custom | externC | pragma | circom | customTemplates | include
  deriving DecidableEq, Repr

/-- Tokens. `op` are the infix operators (`-` is also a prefix operator), `opEq` the shortcuts `+=` and so on, `num` and `hex` numbers by
value. -/
inductive Tok where
  | id (s : String) | num (n : Nat) | hex (n : Nat) | str (s : String)
  | op (o : Infix) | bang | tilde
  | lpar | rpar | lbr | rbr | lcb | rcb | comma | dot | semi | quest | colon | under
  | assign (a : AOp) | right (a : AOp) | eqq | opEq (o : Infix) | pp | mm
  | kw (k : Kw)
  deriving DecidableEq, Repr

/-- `SignalType` (ast.rs:268-272). -/
inductive SigType where
  | output | input | intermediate
  deriving DecidableEq, Repr

/-- `VariableType` (ast.rs:278-284); `AnonymousComponent` is not made by the parser. -/
inductive VType where
  | var | component
  | signal (s : SigType) (tags : List String)
  | bus (name : String) (s : SigType) (tags : List String)
  deriving DecidableEq, Repr

/-- Trees: `Expression`, `Access`, `Statement`, `Definition`, `AST` of ast.rs:85-93, 141-166, 201-265, 287-355, 410-413 in one type, with chains `nil`, `cons` for lists.  `args` are the
inputs of an anonymous component, `sym` and `symInit` are `Symbol`s (ast_shortcuts.rs:7-12), `ty` the header of a declaration with the
call of a bus. -/
inductive Node where
  | nil
  | cons (h t : Node)
  | num (v : Nat)
  | var (x : String) (acc : Node)
  | idx (e : Node)
  | fld (x : String)
  | inf (o : Infix) (a b : Node)
  | pre (o : Prefix) (a : Node)
  | switch (c a b : Node)
  | par (e : Node)
  | call (x : String) (args : Node)
  | busCall (x : String) (args : Node)
  | anon (x : String) (params : Node) (names : Option (List (AOp × String))) (sigs : Node)
  | array (es : Node)
  | tuple (es : Node)
  | uniform (v d : Node)
  | args (names : Option (List (AOp × String))) (sigs : Node)
  | sub (x : String) (acc : Node) (a : AOp) (e : Node)
  | msub (l : Node) (a : AOp) (e : Node)
  | ift (c t : Node)
  | ite (c t e : Node)
  | whil (c b : Node)
  | ret (e : Node)
  | eqc (a b : Node)
  | log (as : Node)
  | text (s : String)
  | assert (e : Node)
  | block (ss : Node)
  | init (t : VType) (ss : Node)
  | decl (t : VType) (x : String) (dims : Node)
  | sym (x : String) (dims : Node)
  | symInit (x : String) (dims : Node) (a : AOp) (e : Node)
  | strs (l : List String)
  | ty (t : VType) (b : Node)
  | fn (x : String) (ps : List String) (body : Node)
  | templ (x : String) (ps : List String) (body : Node) (par custom ext : Bool)
  | busDef (x : String) (ps : List String) (body : Node)
  | main (pub : List String) (e : Node)
  | version (a b c : Nat)
  | customGates
  | file (pragmas : Node) (includes : List String) (defs : Node) (main : Node)
  deriving DecidableEq, Repr

/-- The tier of an operator: 3 for `**` to 12 for `||` (lang.lalrpop:684-712, 781-829). -/
def tierOf : Infix → Nat
  | .or => 12
  | .and => 11
  | .eq | .ne | .lt | .gt | .le | .ge => 10
  | .bitOr => 9
  | .bitXor => 8
  | .bitAnd => 7
  | .shiftL | .shiftR => 6
  | .add | .sub => 5
  | .mul | .div | .intDiv | .mod => 4
  | .pow => 3

/-- lang.lalrpop:775-779. -/
def preTok : Prefix → Tok
  | .not => .bang
  | .compl => .tilde
  | .sub => .op .sub

/-- The operators with a shortcut (lang.lalrpop:400-431). -/
def shortcut : Infix → Bool
  | .intDiv | .pow | .add | .sub | .mul | .div | .mod | .shiftL | .shiftR | .bitAnd | .bitOr | .bitXor => true
  | _ => false

/-- lang.lalrpop:379-399: the left side of an assignment is a variable with accesses, or any other expression. -/
def mkSub (l : Node) (a : AOp) (r : Node) : Node :=
  match l with
  | .var x acc => .sub x acc a r
  | _ => .msub l a r

/-- ast_shortcuts.rs:18-28 `assign_with_op_shortcut`. -/
def mkShort (x : String) (acc : Node) (o : Infix) (r : Node) : Node := .sub x acc .var (.inf o (.var x acc) r)

/-- ast_shortcuts.rs:40-50 `for_into_while`. -/
def mkFor (i c s b : Node) : Node := .block (.cons i (.cons (.whil c (.block (.cons b (.cons s .nil)))) .nil))

/-- Chains put together. -/
def app : Node → Node → Node
  | .cons h t, l => .cons h (app t l)
  | _, l => l

/-- statement_builders.rs:66-76 `split_string`: pieces of 230 bytes; nothing if a piece would end inside a character, where `split_at`
panics.  `room` is what is left of the 230 bytes, `cur` the piece, last character first. -/
def pieces : Nat → List Char → List Char → Option (List String)
  | _, [], [] => some []
  | _, cur, [] => some [String.ofList cur.reverse]
  | room, cur, c :: cs =>
    if room = 0 then (pieces (230 - c.utf8Size) [c] cs).map (String.ofList cur.reverse :: ·)
    else if c.utf8Size ≤ room then pieces (room - c.utf8Size) (c :: cur) cs
    else none

/-- `split_string` (statement_builders.rs:66-76). -/
def splitString (s : String) : Option (List String) := pieces 230 [] s.toList

/-- The pieces of a text as arguments of a log (statement_builders.rs:54-64). -/
def texts : List String → Node → Node
  | [], l => l
  | s :: ss, l => .cons (.text s) (texts ss l)

/-- ast_shortcuts.rs:78-82, 121-125, 172-175: an array of copies, the dimensions from the last to the first. -/
def uniform : Node → Node → Node
  | .cons d ds, v => .uniform (uniform ds v) d
  | _, v => v

/-- ast_shortcuts.rs:52-98 `split_declaration_into_single_nodes`, the statements; `noInit` is the option `--no_init`. -/
def splitDecl (noInit : Bool) (t : VType) (a : AOp) : Node → Node
  | .cons (.sym x dims) l =>
    .cons (.decl t x dims)
      (if t = .var ∧ noInit = false then .cons (.sub x .nil a (uniform dims (.num 0))) (splitDecl noInit t a l) else splitDecl noInit t a l)
  | .cons (.symInit x dims _ e) l =>
    .cons (.decl t x dims)
      (if t = .var ∧ dims ≠ .nil ∧ noInit = false then
        .cons (.sub x .nil a (uniform dims (.num 0))) (.cons (.sub x .nil a e) (splitDecl noInit t a l))
      else .cons (.sub x .nil a e) (splitDecl noInit t a l))
  | _ => .nil

/-- ast_shortcuts.rs:112-129, the loop: declarations, and zeros where there are any. -/
def tupleDecls (noInit : Bool) (t : VType) (hasInit : Bool) : Node → Node
  | .cons (.sym x dims) l =>
    .cons (.decl t x dims)
      (if t = .var ∧ (hasInit = false ∨ dims ≠ .nil) ∧ noInit = false then
        .cons (.sub x .nil .var (uniform dims (.num 0))) (tupleDecls noInit t hasInit l)
      else tupleDecls noInit t hasInit l)
  | _ => .nil

/-- ast_shortcuts.rs:128: the variables. -/
def symVars : Node → Node
  | .cons (.sym x _) l => .cons (.var x .nil) (symVars l)
  | _ => .nil

/-- ast_shortcuts.rs:130-140. -/
def tupleSub (vars : Node) (a : AOp) (e : Node) : Node :=
  match vars with
  | .cons (.var x _) .nil => .sub x .nil a e
  | vs => .msub (.tuple vs) a e

/-- ast_shortcuts.rs:148-185 `split_bus_declaration_into_single_nodes`, the statements. -/
def splitBus (call : Node) (t : VType) (a : AOp) : Node → Node
  | .cons (.sym x dims) l => .cons (.decl t x dims) (.cons (.sub x .nil .var (uniform dims call)) (splitBus call t a l))
  | .cons (.symInit x dims _ e) l =>
    .cons (.decl t x dims) (.cons (.sub x .nil .var (uniform dims call)) (.cons (.sub x .nil a e) (splitBus call t a l)))
  | _ => .nil

/-- Every symbol of a list is without initial value, or has one with the operator `a` where `plain` allows both (lang.lalrpop:242-300). -/
def kinds (plain : Bool) (a : Option AOp) : Node → Bool
  | .cons (.sym _ _) l => plain && kinds plain a l
  | .cons (.symInit _ _ b _) l => (a == some b) && kinds plain a l
  | .nil => true
  | _ => false

/-- Words for the kind of a signal (lang.lalrpop:161-164). -/
def sigTok : SigType → List Tok
  | .input => [.kw .input]
  | .output => [.kw .output]
  | .intermediate => []

/-- A word that may be there (lang.lalrpop:129). -/
def flag (b : Bool) (k : Kw) : List Tok := if b then [.kw k] else []

/-- The non-terminals. `tier k` are `Expression3` to `Expression12`. -/
inductive Nt where
  | exp | exp1 | tier (k : Nat) | t2 | t1 | t0
  | accs | vari | list | opt | named | anonArgs
  | subst | stmt0 | nb | s1 | s2 | s3 | stmts | block | logArgs
  | ids | tags | dims | sym | syms | hdr | busHdr | tinit | decl
  | params | oparams | defn | defns | main | pragmas | includes | file
  deriving DecidableEq, Repr

/-- The operands of a tier. -/
def below (k : Nat) : Nt := if k = 3 then .t2 else .tier (k - 1)

/-- The rules. `p` is the prime, `ni` the option `--no_init`. -/
inductive D (p : Nat) (ni : Bool) : Nt → List Tok → Node → Prop where
  -- lang.lalrpop:561-575
  | accsNil : D p ni .accs [] .nil
  | accsIdx {t t' e a} : D p ni .exp t e → D p ni .accs t' a → D p ni .accs (.lbr :: t ++ .rbr :: t') (.cons (.idx e) a)
  | accsFld {t a x} : D p ni .accs t a → D p ni .accs (.dot :: .id x :: t) (.cons (.fld x) a)
  | vari {t a x} : D p ni .accs t a → D p ni .vari (.id x :: t) (.var x a)
  -- lang.lalrpop:579-586
  | listOne {t e} : D p ni .exp t e → D p ni .list t (.cons e .nil)
  | listCons {t t' e l} : D p ni .exp t e → D p ni .list t' l → D p ni .list (t ++ .comma :: t') (.cons e l)
  | optNone : D p ni .opt [] .nil
  | optSome {t l} : D p ni .list t l → D p ni .opt t l
  -- lang.lalrpop:588-606
  | namedOne {t e x a} : D p ni .exp t e → D p ni .named (.id x :: .assign a :: t) (.args (some [(a, x)]) (.cons e .nil))
  | namedCons {t t' e x a ns es} : D p ni .exp t e → D p ni .named t' (.args (some ns) es) →
      D p ni .named (.id x :: .assign a :: t ++ .comma :: t') (.args (some ((a, x) :: ns)) (.cons e es))
  | anonNone : D p ni .anonArgs [] (.args none .nil)
  | anonList {t l} : D p ni .list t l → D p ni .anonArgs t (.args none l)
  | anonNamed {t v} : D p ni .named t v → D p ni .anonArgs t v
  -- lang.lalrpop:749-767
  | var {t v} : D p ni .vari t v → D p ni .t0 t v
  | under : D p ni .t0 [.under] (.var "_" .nil)
  | dec {n} : D p ni .t0 [.num n] (.num (n % p))
  | hex {n} : D p ni .t0 [.hex n] (.num (n % p))
  | paren {t e} : D p ni .exp t e → D p ni .t0 (.lpar :: t ++ [.rpar]) e
  -- lang.lalrpop:718-746
  | anon {t t' x a ns ss} : D p ni .opt t a → D p ni .anonArgs t' (.args ns ss) →
      D p ni .t1 (.id x :: .lpar :: t ++ .rpar :: .lpar :: t' ++ [.rpar]) (.anon x a ns ss)
  | call {t x a} : D p ni .opt t a → D p ni .t1 (.id x :: .lpar :: t ++ [.rpar]) (.call x a)
  | array {t l} : D p ni .list t l → D p ni .t1 (.lbr :: t ++ [.rbr]) (.array l)
  | tuple {t t' e l} : D p ni .exp t e → D p ni .list t' l → D p ni .t1 (.lpar :: t ++ .comma :: t' ++ [.rpar]) (.tuple (.cons e l))
  | one {t e} : D p ni .t0 t e → D p ni .t1 t e
  -- lang.lalrpop:652-657, 715
  | pre {t e o} : D p ni .t1 t e → D p ni .t2 (preTok o :: t) (.pre o e)
  | two {t e} : D p ni .t1 t e → D p ni .t2 t e
  -- lang.lalrpop:645-650, 684-712
  | inf {t t' a b o} : D p ni (.tier (tierOf o)) t a → D p ni (below (tierOf o)) t' b → D p ni (.tier (tierOf o)) (t ++ .op o :: t') (.inf o a b)
  | up {t e k} : 3 ≤ k → k ≤ 12 → D p ni (below k) t e → D p ni (.tier k) t e
  -- lang.lalrpop:659-682
  | exp12 {t e} : D p ni (.tier 12) t e → D p ni .exp1 t e
  | switch {t t' t'' c a b} : D p ni (.tier 12) t c → D p ni (.tier 12) t' a → D p ni (.tier 12) t'' b →
      D p ni .exp1 (t ++ .quest :: t' ++ .colon :: t'') (.switch c a b)
  | exp {t e} : D p ni .exp1 t e → D p ni .exp t e
  | par {t e} : D p ni .exp1 t e → D p ni .exp (.kw .parallel :: t) (.par e)
  -- lang.lalrpop:378-458
  | assign {t t' l r a} : D p ni .exp t l → D p ni .exp t' r → D p ni .subst (t ++ .assign a :: t') (mkSub l a r)
  | right {t t' l r a} : a ≠ .var → D p ni .exp t l → D p ni .exp t' r → D p ni .subst (t ++ .right a :: t') (mkSub r a l)
  | short {t t' x acc r o} : shortcut o = true → D p ni .vari t (.var x acc) → D p ni .exp t' r →
      D p ni .subst (t ++ .opEq o :: t') (mkShort x acc o r)
  | incr {t x acc} : D p ni .vari t (.var x acc) → D p ni .subst (t ++ [.pp]) (mkShort x acc .add (.num (1 % p)))
  | decr {t x acc} : D p ni .vari t (.var x acc) → D p ni .subst (t ++ [.mm]) (mkShort x acc .sub (.num (1 % p)))
  -- lang.lalrpop:460-493
  | block {t l} : D p ni .stmts t l → D p ni .block (.lcb :: t ++ [.rcb]) (.block l)
  | s0nb {t v} : D p ni .nb t v → D p ni .stmt0 t v
  | s0s1 {t v} : D p ni .s1 t v → D p ni .stmt0 t v
  | nbnb {t t' c v} : D p ni .exp t c → D p ni .nb t' v → D p ni .nb (.kw .if_ :: .lpar :: t ++ .rpar :: t') (.ift c v)
  | nbs1 {t t' c v} : D p ni .exp t c → D p ni .s1 t' v → D p ni .nb (.kw .if_ :: .lpar :: t ++ .rpar :: t') (.ift c v)
  | nbElse {t t' t'' c v w} : D p ni .exp t c → D p ni .s1 t' v → D p ni .nb t'' w →
      D p ni .nb (.kw .if_ :: .lpar :: t ++ .rpar :: t' ++ .kw .else_ :: t'') (.ite c v w)
  | s1Else {t t' t'' c v w} : D p ni .exp t c → D p ni .s1 t' v → D p ni .s1 t'' w →
      D p ni .s1 (.kw .if_ :: .lpar :: t ++ .rpar :: t' ++ .kw .else_ :: t'') (.ite c v w)
  | s1s2 {t v} : D p ni .s2 t v → D p ni .s1 t v
  -- lang.lalrpop:495-552
  | forDecl {ti tc ts tb i c s b} : D p ni .decl ti i → D p ni .exp tc c → D p ni .subst ts s → D p ni .s2 tb b →
      D p ni .s2 (.kw .for_ :: .lpar :: ti ++ .semi :: tc ++ .semi :: ts ++ .rpar :: tb) (mkFor i c s b)
  | forSubst {ti tc ts tb i c s b} : D p ni .subst ti i → D p ni .exp tc c → D p ni .subst ts s → D p ni .s2 tb b →
      D p ni .s2 (.kw .for_ :: .lpar :: ti ++ .semi :: tc ++ .semi :: ts ++ .rpar :: tb) (mkFor i c s b)
  | whil {t t' c b} : D p ni .exp t c → D p ni .s2 t' b → D p ni .s2 (.kw .while_ :: .lpar :: t ++ .rpar :: t') (.whil c b)
  | ret {t e} : D p ni .exp t e → D p ni .s2 (.kw .return_ :: t ++ [.semi]) (.ret e)
  | sub {t v} : D p ni .subst t v → D p ni .s2 (t ++ [.semi]) v
  | eqc {t t' a b} : D p ni .exp t a → D p ni .exp t' b → D p ni .s2 (t ++ .eqq :: t' ++ [.semi]) (.eqc a b)
  | log {t l} : D p ni .logArgs t l → D p ni .s2 (.kw .log :: .lpar :: t ++ [.rpar, .semi]) (.log l)
  | logNone : D p ni .s2 [.kw .log, .lpar, .rpar, .semi] (.log .nil)
  | assert {t e} : D p ni .exp t e → D p ni .s2 (.kw .assert :: .lpar :: t ++ [.rpar, .semi]) (.assert e)
  | anonStmt {t x ps ns ss} : D p ni .exp t (.anon x ps ns ss) → D p ni .s2 (t ++ [.semi]) (.msub (.tuple .nil) .con (.anon x ps ns ss))
  | blockStmt {t v} : D p ni .block t v → D p ni .s2 t v
  | s3Decl {t v} : D p ni .decl t v → D p ni .s3 (t ++ [.semi]) v
  | s3Stmt {t v} : D p ni .stmt0 t v → D p ni .s3 t v
  | stmtsNil : D p ni .stmts [] .nil
  | stmtsCons {t t' v l} : D p ni .s3 t v → D p ni .stmts t' l → D p ni .stmts (t ++ t') (.cons v l)
  -- lang.lalrpop:607-633
  | logStr {s ss} : splitString s = some ss → D p ni .logArgs [.str s] (texts ss .nil)
  | logExp {t e} : D p ni .exp t e → D p ni .logArgs t (.cons e .nil)
  | logStrCons {s ss t l} : splitString s = some ss → D p ni .logArgs t l → D p ni .logArgs (.str s :: .comma :: t) (texts ss l)
  | logExpCons {t t' e l} : D p ni .exp t e → D p ni .logArgs t' l → D p ni .logArgs (t ++ .comma :: t') (.cons e l)
  -- lang.lalrpop:21-27, 157-176
  | idsOne {x} : D p ni .ids [.id x] (.strs [x])
  | idsCons {x t l} : D p ni .ids t (.strs l) → D p ni .ids (.id x :: .comma :: t) (.strs (x :: l))
  | tagsNone : D p ni .tags [] (.strs [])
  | tagsSome {t l} : D p ni .ids t (.strs l) → D p ni .tags (.lcb :: t ++ [.rcb]) (.strs l)
  -- lang.lalrpop:178-234
  | hdr {s t l} : D p ni .tags t (.strs l) → D p ni .hdr (.kw .signal :: sigTok s ++ t) (.ty (.signal s l) .nil)
  | hdrPre {s t l} : s ≠ .intermediate → D p ni .tags t (.strs l) → D p ni .hdr (sigTok s ++ .kw .signal :: t) (.ty (.signal s l) .nil)
  | busHdr {x s t l} : D p ni .tags t (.strs l) → D p ni .busHdr (.id x :: sigTok s ++ t) (.ty (.bus x s l) (.busCall x .nil))
  | busHdrArgs {x s t t' l a} : D p ni .opt t a → D p ni .tags t' (.strs l) →
      D p ni .busHdr (.id x :: .lpar :: t ++ .rpar :: sigTok s ++ t') (.ty (.bus x s l) (.busCall x a))
  | busPre {x s t l} : s ≠ .intermediate → D p ni .tags t (.strs l) →
      D p ni .busHdr (sigTok s ++ .id x :: t) (.ty (.bus x s l) (.busCall x .nil))
  | busPreArgs {x s t t' l a} : s ≠ .intermediate → D p ni .opt t a → D p ni .tags t' (.strs l) →
      D p ni .busHdr (sigTok s ++ .id x :: .lpar :: t ++ .rpar :: t') (.ty (.bus x s l) (.busCall x a))
  -- lang.lalrpop:242-300
  | dimsNil : D p ni .dims [] .nil
  | dimsCons {t t' e l} : D p ni .exp t e → D p ni .dims t' l → D p ni .dims (.lbr :: t ++ .rbr :: t') (.cons e l)
  | sym {x t l} : D p ni .dims t l → D p ni .sym (.id x :: t) (.sym x l)
  | symInit {x t t' l e a} : D p ni .dims t l → D p ni .exp t' e → D p ni .sym (.id x :: t ++ .assign a :: t') (.symInit x l a e)
  | symsOne {t v} : D p ni .sym t v → D p ni .syms t (.cons v .nil)
  | symsCons {t t' v l} : D p ni .sym t v → D p ni .syms t' l → D p ni .syms (t ++ .comma :: t') (.cons v l)
  | tinit {t e a} : D p ni .exp t e → D p ni .tinit (.assign a :: t) (.msub .nil a e)
  -- lang.lalrpop:302-323
  | varTuple {t l} : D p ni .syms t l → kinds true none l = true →
      D p ni .decl (.kw .var :: .lpar :: t ++ [.rpar]) (.init .var (tupleDecls ni .var false l))
  | varTupleInit {t t' l a e} : D p ni .syms t l → kinds true none l = true → D p ni .tinit t' (.msub .nil a e) →
      D p ni .decl (.kw .var :: .lpar :: t ++ .rpar :: t')
        (.init .var (app (tupleDecls ni .var true l) (.cons (tupleSub (symVars l) a e) .nil)))
  | compTuple {t l} : D p ni .syms t l → kinds true none l = true →
      D p ni .decl (.kw .component :: .lpar :: t ++ [.rpar]) (.init .component (tupleDecls ni .component false l))
  | compTupleInit {t t' l a e} : D p ni .syms t l → kinds true none l = true → D p ni .tinit t' (.msub .nil a e) →
      D p ni .decl (.kw .component :: .lpar :: t ++ .rpar :: t')
        (.init .component (app (tupleDecls ni .component true l) (.cons (tupleSub (symVars l) a e) .nil)))
  | sigTuple {h t l ty} : D p ni .hdr h (.ty ty .nil) → D p ni .syms t l → kinds true none l = true →
      D p ni .decl (h ++ .lpar :: t ++ [.rpar]) (.init ty (tupleDecls ni ty false l))
  | sigTupleInit {h t t' l ty a e} : D p ni .hdr h (.ty ty .nil) → D p ni .syms t l → kinds true none l = true →
      D p ni .tinit t' (.msub .nil a e) →
      D p ni .decl (h ++ .lpar :: t ++ .rpar :: t') (.init ty (app (tupleDecls ni ty true l) (.cons (tupleSub (symVars l) a e) .nil)))
  -- lang.lalrpop:326-373
  | varDecl {t l} : D p ni .syms t l → kinds true (some .var) l = true → D p ni .decl (.kw .var :: t) (.init .var (splitDecl ni .var .var l))
  | compDecl {t l} : D p ni .syms t l → kinds true (some .var) l = true →
      D p ni .decl (.kw .component :: t) (.init .component (splitDecl ni .component .var l))
  | sigDecl {h t l ty} : D p ni .hdr h (.ty ty .nil) → D p ni .syms t l → kinds true (some .con) l = true →
      D p ni .decl (h ++ t) (.init ty (splitDecl ni ty .con l))
  | sigDeclSig {h t l ty} : D p ni .hdr h (.ty ty .nil) → D p ni .syms t l → kinds false (some .sig) l = true →
      D p ni .decl (h ++ t) (.init ty (splitDecl ni ty .sig l))
  | busDecl {h t l ty b} : D p ni .busHdr h (.ty ty b) → D p ni .syms t l → kinds true (some .con) l = true →
      D p ni .decl (h ++ t) (.init ty (splitBus b ty .con l))
  | busDeclSig {h t l ty b} : D p ni .busHdr h (.ty ty b) → D p ni .syms t l → kinds false (some .sig) l = true →
      D p ni .decl (h ++ t) (.init ty (splitBus b ty .sig l))
  -- lang.lalrpop:112-148
  | paramsNone : D p ni .params [.lpar, .rpar] (.strs [])
  | paramsSome {t l} : D p ni .ids t (.strs l) → D p ni .params (.lpar :: t ++ [.rpar]) (.strs l)
  | oparamsNone : D p ni .oparams [] (.strs [])
  | oparamsSome {t l} : D p ni .params t (.strs l) → D p ni .oparams t (.strs l)
  | fn {x t t' l b} : D p ni .params t (.strs l) → D p ni .block t' b → D p ni .defn (.kw .function :: .id x :: t ++ t') (.fn x l b)
  | templ {x t t' l b cu ex pa} : D p ni .oparams t (.strs l) → D p ni .block t' b →
      D p ni .defn (.kw .template :: flag cu .custom ++ flag ex .externC ++ flag pa .parallel ++ .id x :: t ++ t') (.templ x l b pa cu ex)
  | busDef {x t t' l b} : D p ni .oparams t (.strs l) → D p ni .block t' b → D p ni .defn (.kw .bus :: .id x :: t ++ t') (.busDef x l b)
  -- lang.lalrpop:44-110
  | defnsNil : D p ni .defns [] .nil
  | defnsCons {t t' d l} : D p ni .defn t d → D p ni .defns t' l → D p ni .defns (t ++ t') (.cons d l)
  | mainNone : D p ni .main [] .nil
  | main {t e} : D p ni .exp t e → D p ni .main (.kw .component :: .kw .main :: .assign .var :: t ++ [.semi]) (.main [] e)
  | mainPublic {t t' l e} : D p ni .ids t (.strs l) → D p ni .exp t' e →
      D p ni .main (.kw .component :: .kw .main :: .lcb :: .kw .public_ :: .lbr :: t ++ .rbr :: .rcb :: .assign .var :: t' ++ [.semi]) (.main l e)
  | pragmasNil : D p ni .pragmas [] .nil
  | pragmasVersion {a b c t l} : a < 2 ^ 64 → b < 2 ^ 64 → c < 2 ^ 64 → D p ni .pragmas t l →
      D p ni .pragmas (.kw .pragma :: .kw .circom :: .num a :: .dot :: .num b :: .dot :: .num c :: .semi :: t) (.cons (.version a b c) l)
  | pragmasCustom {t l} : D p ni .pragmas t l → D p ni .pragmas (.kw .pragma :: .kw .customTemplates :: .semi :: t) (.cons .customGates l)
  | includesNil : D p ni .includes [] (.strs [])
  | includesCons {s t l} : D p ni .includes t (.strs l) → D p ni .includes (.kw .include :: .str s :: .semi :: t) (.strs (s :: l))
  | file {t t' t2 t3 ps is ds m} : D p ni .pragmas t ps → D p ni .includes t' (.strs is) → D p ni .defns t2 ds → D p ni .main t3 m →
      D p ni .file (t ++ t' ++ t2 ++ t3) (.file ps is ds m)

end Verif.Grammar
