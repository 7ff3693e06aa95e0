/-!
# Removal of nested calls, conditional expressions and inline arrays

Model of `compiler/src/hir/sugar_cleaner.rs`, the pass that rewrites the code of templates and functions before the translation
into instructions, together with a reference semantics of the statements it works on.

Field elements are an arbitrary type `K`.  Names stand for declarations (scopes are resolved, see `Verif.Scope`), so there is one
environment without blocks; names made by the pass are apart from those of the source.  Not modelled: buses as whole values,
`parallel`, the texts printed by `log`, rows of inline arrays shorter than the others (sugar_cleaner.rs:402-424 fills them up with
zeros).
-/

namespace Verif.Sugar

/-- Names: of the source, `{}_auto` of `produce_id` (sugar_cleaner.rs:19-23), and the numbers of `split_return`
(sugar_cleaner.rs:570-606). -/
inductive Name where
  | src (n : Nat)
  | auto (n : Nat)
  | ret (n : Nat)
  deriving DecidableEq, Repr

/-- Values: field elements, arrays (also components and buses, by position), storage that was declared and not yet assigned. -/
inductive Val (K : Type) where
  | num (v : K)
  | arr (vs : List (Val K))
  | undef

/-- Infix operators; the two the pass looks at have names. -/
inductive Op where
  | add
  | pow
  | other (n : Nat)
  deriving DecidableEq, Repr

mutual
/-- program_structure/src/abstract_syntax_tree/ast.rs `Expression`; `d` is `get_concrete_dimensions` of the node.  The number of
copies of `UniformArray` is a literal after constant propagation. -/
inductive Expr (K : Type) where
  | num (v : K)
  | var (d : List Nat) (x : Name) (acc : List (Acc K))
  | infix (op : Op) (l r : Expr K)
  | pre (op : Nat) (e : Expr K)
  | call (d : List Nat) (f : Nat) (args : List (Expr K))
  | switch (d : List Nat) (c a b : Expr K)
  | arr (d : List Nat) (vs : List (Expr K))
  | uni (d : List Nat) (v : Expr K) (n : Nat)

/-- `Access`: a computed index, or a fixed position (a field, a signal of a component, an index made by the pass). -/
inductive Acc (K : Type) where
  | idx (e : Expr K)
  | fld (k : Nat)
end

/-- ast.rs `Statement`.  A missing `else` is an empty block; `assign` is `Substitution` with any operator. -/
inductive Stmt (K : Type) where
  | decl (x : Name) (d : List Nat)
  | assign (x : Name) (acc : List (Acc K)) (e : Expr K)
  | eqc (l r : Expr K)
  | log (args : List (Expr K))
  | assert (e : Expr K)
  | ret (e : Expr K)
  | ite (c : Expr K) (a b : Stmt K)
  | loop (c : Expr K) (s : Stmt K)
  | block (ss : List (Stmt K))
  | init (ss : List (Stmt K))

/-! ## Reference semantics -/

/-- Arithmetic: results may be missing (division by zero, index too large). -/
structure Sem (K : Type) where
  zero : K
  op : Op → K → K → Option K
  pre : Nat → K → Option K
  index : K → Option Nat
  truthy : K → Bool
  eq : K → K → Bool
  zero_add : ∀ v, op .add zero v = some v
  eq_comm : ∀ a b, eq a b = eq b a

/-- Environment. -/
abbrev Env (K : Type) := Name → Val K

/-- Meaning of the functions. -/
abbrev Fns (K : Type) := Nat → List (Val K) → Option (Val K)

section
variable {K : Type}

mutual
/-- Has the value the dimensions `d`? -/
def fits : List Nat → Val K → Bool
  | [], .num _ => true
  | d :: ds, .arr vs => decide (vs.length = d) && fitsL ds vs
  | _, _ => false

/-- All elements. -/
def fitsL : List Nat → List (Val K) → Bool
  | _, [] => true
  | d, v :: vs => fits d v && fitsL d vs
end

/-- Declared storage. -/
def blank : List Nat → Val K
  | [] => .undef
  | d :: ds => .arr (List.replicate d (blank ds))

mutual
/-- Assignment of a whole value: the elements given replace the old ones; the storage must be large enough. -/
def over : Val K → Val K → Option (Val K)
  | old, .arr [] => some old
  | .arr os, .arr (v :: vs) => (overL os (v :: vs)).map .arr
  | .num _, .num v => some (.num v)
  | .undef, .num v => some (.num v)
  | _, _ => none

/-- Element by element. -/
def overL : List (Val K) → List (Val K) → Option (List (Val K))
  | os, [] => some os
  | [], _ :: _ => none
  | o :: os, v :: vs =>
    match over o v with
    | none => none
    | some o' =>
      match overL os vs with
      | none => none
      | some os' => some (o' :: os')
end

/-- Assignment at a position. -/
def store : List Nat → Val K → Val K → Option (Val K)
  | [], old, v => over old v
  | i :: p, .arr os, v =>
    match os[i]? with
    | none => none
    | some o =>
      match store p o v with
      | none => none
      | some o' => some (.arr (os.set i o'))
  | _ :: _, _, _ => none

/-- Value at a position. -/
def fetch : List Nat → Val K → Option (Val K)
  | [], v => some v
  | i :: p, .arr vs =>
    match vs[i]? with
    | none => none
    | some v => fetch p v
  | _ :: _, _ => none

mutual
/-- Equality of values. -/
def same (eq : K → K → Bool) : Val K → Val K → Bool
  | .num a, .num b => eq a b
  | .arr as, .arr bs => sameL eq as bs
  | _, _ => false

/-- All elements. -/
def sameL (eq : K → K → Bool) : List (Val K) → List (Val K) → Bool
  | [], [] => true
  | a :: as, b :: bs => same eq a b && sameL eq as bs
  | _, _ => false
end

/-- A value of the given dimensions. -/
def checked (d : List Nat) : Option (Val K) → Option (Val K)
  | some v => if fits d v then some v else none
  | none => none

mutual
/-- Value of an expression.  Of a conditional expression only the chosen branch is evaluated, as the compiler does when it
executes the program (constraint_generation/src/execute.rs:1227-1242). -/
def eval (S : Sem K) (F : Fns K) (E : Env K) : Expr K → Option (Val K)
  | .num v => some (.num v)
  | .var d x acc =>
    match path S F E acc with
    | none => none
    | some p => checked d (fetch p (E x))
  | .infix op l r =>
    match eval S F E l, eval S F E r with
    | some (.num a), some (.num b) => (S.op op a b).map .num
    | _, _ => none
  | .pre op e =>
    match eval S F E e with
    | some (.num a) => (S.pre op a).map .num
    | _ => none
  | .call d f args =>
    match evalL S F E args with
    | none => none
    | some vs => checked d (F f vs)
  | .switch d c a b =>
    match eval S F E c with
    | some (.num v) => checked d (if S.truthy v then eval S F E a else eval S F E b)
    | _ => none
  | .arr d vs =>
    match evalL S F E vs with
    | none => none
    | some ws => checked d (some (.arr ws))
  | .uni d v n =>
    match eval S F E v with
    | none => none
    | some w => checked d (some (.arr (List.replicate n w)))

/-- Several expressions. -/
def evalL (S : Sem K) (F : Fns K) (E : Env K) : List (Expr K) → Option (List (Val K))
  | [] => some []
  | e :: es =>
    match eval S F E e with
    | none => none
    | some v =>
      match evalL S F E es with
      | none => none
      | some vs => some (v :: vs)

/-- The position denoted by accesses. -/
def path (S : Sem K) (F : Fns K) (E : Env K) : List (Acc K) → Option (List Nat)
  | [] => some []
  | a :: as =>
    match access S F E a with
    | none => none
    | some i =>
      match path S F E as with
      | none => none
      | some p => some (i :: p)

/-- One access. -/
def access (S : Sem K) (F : Fns K) (E : Env K) : Acc K → Option Nat
  | .fld k => some k
  | .idx e =>
    match eval S F E e with
    | some (.num v) => S.index v
    | _ => none
end

/-- Change one name. -/
def Env.put (E : Env K) (x : Name) (v : Val K) : Env K := fun y => if y = x then v else E y

/-- Truth value of a condition. -/
def cond (S : Sem K) (F : Fns K) (E : Env K) (c : Expr K) : Option Bool :=
  match eval S F E c with
  | some (.num v) => some (S.truthy v)
  | _ => none

/-- At most `k` iterations. -/
def iter (c : Env K → Option Bool) (body : Env K → Option (Env K × Option (Val K))) :
    Nat → Env K → Option (Env K × Option (Val K))
  | 0, _ => none
  | k + 1, E =>
    match c E with
    | none => none
    | some false => some (E, none)
    | some true =>
      match body E with
      | none => none
      | some (E', some r) => some (E', some r)
      | some (E', none) => iter c body k E'

mutual
/-- Execution; the result is the environment and the returned value, if a `return` was reached.  `n` bounds the number of
iterations of each loop. -/
def exec (S : Sem K) (F : Fns K) (n : Nat) : Stmt K → Env K → Option (Env K × Option (Val K))
  | .decl x d, E => some (E.put x (blank d), none)
  | .assign x acc e, E =>
    match path S F E acc, eval S F E e with
    | some p, some v =>
      match store p (E x) v with
      | none => none
      | some w => some (E.put x w, none)
    | _, _ => none
  | .eqc l r, E =>
    match eval S F E l, eval S F E r with
    | some a, some b => if same S.eq a b then some (E, none) else none
    | _, _ => none
  | .log args, E =>
    match evalL S F E args with
    | none => none
    | some _ => some (E, none)
  | .assert e, E =>
    match cond S F E e with
    | some true => some (E, none)
    | _ => none
  | .ret e, E =>
    match eval S F E e with
    | none => none
    | some v => some (E, some v)
  | .ite c a b, E =>
    match cond S F E c with
    | none => none
    | some true => exec S F n a E
    | some false => exec S F n b E
  | .loop c s, E => iter (fun E => cond S F E c) (fun E => exec S F n s E) n E
  | .block ss, E => execL S F n ss E
  | .init ss, E => execL S F n ss E

/-- Statements one after the other up to a `return`. -/
def execL (S : Sem K) (F : Fns K) (n : Nat) : List (Stmt K) → Env K → Option (Env K × Option (Val K))
  | [], E => some (E, none)
  | s :: ss, E =>
    match exec S F n s E with
    | none => none
    | some (E', some r) => some (E', some r)
    | some (E', none) => execL S F n ss E'
end

/-- The functions of a program: parameters and body. -/
abbrev Table (K : Type) := Nat → Option (List Name × Stmt K)

/-- The environment a function body starts with. -/
def bind : List Name → List (Val K) → Env K
  | x :: xs, v :: vs => (bind xs vs).put x v
  | _, _ => fun _ => .undef

/-- Meaning of the functions with calls nested at most `n` deep and at most `n` iterations per loop. -/
def callN (S : Sem K) (T : Table K) : Nat → Fns K
  | 0 => fun _ _ => none
  | n + 1 => fun f args =>
    match T f with
    | none => none
    | some (xs, body) =>
      match exec S (callN S T n) n body (bind xs args) with
      | some (_, some v) => some v
      | _ => none

/-! ## The pass -/

/-- `is_call`, `is_switch`, `is_array`. -/
def isSugar : Expr K → Bool
  | .call _ _ _ => true
  | .switch _ _ _ _ => true
  | .arr _ _ => true
  | .uni _ _ _ => true
  | _ => false

/-- Dimensions of a node; numbers and results of operators are single elements. -/
def dims : Expr K → List Nat
  | .var d _ _ => d
  | .call d _ _ => d
  | .switch d _ _ _ => d
  | .arr d _ => d
  | .uni d _ _ => d
  | _ => []

/-- sugar_cleaner.rs:492-523 `rmv_sugar`: the statements put into the buffer … -/
def newInit (n : Nat) (e : Expr K) : List (Stmt K) := [.decl (.auto n) (dims e), .assign (.auto n) [] e]

/-- … and the variable that takes the place of the expression. -/
def newVar (n : Nat) (e : Expr K) : Expr K := .var (dims e) (.auto n) []

/-- sugar_cleaner.rs:478-490 `sugar_filter`: statements, expressions, next number. -/
def filter : List (Expr K) → Nat → List (Stmt K) × List (Expr K) × Nat
  | [], n => ([], [], n)
  | e :: es, n =>
    if isSugar e then
      let (is, es', n') := filter es (n + 1)
      (newInit n e ++ is, newVar n e :: es', n')
    else
      let (is, es', n') := filter es n
      (is, e :: es', n')

/-- One expression. -/
def filter1 (e : Expr K) (n : Nat) : List (Stmt K) × Expr K × Nat :=
  if isSugar e then (newInit n e, newVar n e, n + 1) else ([], e, n)

/-- sugar_cleaner.rs:316-340: the exponent of `x ** x` gets `0 +` in front when both operands are variables with the same name,
or equal literals. -/
def fixPow (S : Sem K) (op : Op) (l r : Expr K) : Expr K :=
  match op, l, r with
  | .pow, .var _ x _, .var _ y _ => if y = x then .infix .add (.num S.zero) r else r
  | .pow, .num a, .num b => if S.eq b a then .infix .add (.num S.zero) r else r
  | _, _, _ => r

mutual
/-- sugar_cleaner.rs:216-242 `extend_expression` and the functions it calls (244-475).  `mixed` is `context.mixed_components`,
`inside` is `state.inside_mixed_component`. -/
def extE (S : Sem K) (mixed : Name → Bool) : Bool → Expr K → Nat → List (Stmt K) × Expr K × Nat
  | _, .num v, n => ([], .num v, n)
  | inside, .var d x acc, n =>
    let (is, acc', n1) := extAs S mixed (inside || mixed x) acc n
    if inside && mixed x then (is ++ newInit n1 (.var d x acc'), newVar n1 (.var d x acc'), n1 + 1)
    else (is, .var d x acc', n1)
  | inside, .infix op l r, n =>
    let (il, l', n1) := extE S mixed inside l n
    let (ir, r', n2) := extE S mixed inside r n1
    let (fl, l'', n3) := filter1 l' n2
    let (fr, r'', n4) := filter1 r' n3
    (il ++ ir ++ fl ++ fr, .infix op l'' (fixPow S op l'' r''), n4)
  | inside, .pre op e, n =>
    let (ie, e', n1) := extE S mixed inside e n
    let (fe, e'', n2) := filter1 e' n1
    (ie ++ fe, .pre op e'', n2)
  | inside, .call d f args, n =>
    let (is, args', n1) := extEs S mixed inside args n
    let (fs, args'', n2) := filter args' n1
    (is ++ fs, .call d f args'', n2)
  | inside, .switch d c a b, n =>
    let (ia, a', n1) := extE S mixed inside a n
    let (ib, b', n2) := extE S mixed inside b n1
    let (fa, a'', n3) := filter1 a' n2
    let (fb, b'', n4) := filter1 b' n3
    (ia ++ ib ++ fa ++ fb, .switch d c a'' b'', n4)
  | inside, .arr d vs, n =>
    let (is, vs', n1) := extEs S mixed inside vs n
    let (fs, vs'', n2) := filter vs' n1
    (is ++ fs, .arr d vs'', n2)
  | inside, .uni d v k, n =>
    let (iv, v', n1) := extE S mixed inside v n
    let (fv, v'', n2) := filter1 v' n1
    (iv ++ fv, .uni d v'' k, n2)

/-- The loops over arguments and elements. -/
def extEs (S : Sem K) (mixed : Name → Bool) : Bool → List (Expr K) → Nat → List (Stmt K) × List (Expr K) × Nat
  | _, [], n => ([], [], n)
  | inside, e :: es, n =>
    let (ie, e', n1) := extE S mixed inside e n
    let (is, es', n2) := extEs S mixed inside es n1
    (ie ++ is, e' :: es', n2)

/-- sugar_cleaner.rs:252-262 (also 152-160): the loop over accesses; a call, conditional expression or array as index is taken
out. -/
def extAs (S : Sem K) (mixed : Name → Bool) : Bool → List (Acc K) → Nat → List (Stmt K) × List (Acc K) × Nat
  | _, [], n => ([], [], n)
  | inside, a :: as, n =>
    let (ia, a', n1) := extA S mixed inside a n
    let (is, as', n2) := extAs S mixed inside as n1
    (ia ++ is, a' :: as', n2)

/-- One access. -/
def extA (S : Sem K) (mixed : Name → Bool) : Bool → Acc K → Nat → List (Stmt K) × Acc K × Nat
  | _, .fld k, n => ([], .fld k, n)
  | inside, .idx e, n =>
    let (ie, e', n1) := extE S mixed inside e n
    let (fe, e'', n2) := filter1 e' n1
    (ie ++ fe, .idx e'', n2)
end

/-- Assignments to the elements number `i`, `i + 1`, … -/
def elems (x : Name) (acc : List (Acc K)) : Nat → List (Expr K) → List (Stmt K)
  | _, [] => []
  | i, v :: vs => .assign x (acc ++ [.fld i]) v :: elems x acc (i + 1) vs

/-- sugar_cleaner.rs:609-616 `into_single_substitution`, 618-650 `rhe_switch_case`, 662-718 `rhe_array_case`. -/
def splitSub : Stmt K → List (Stmt K)
  | .assign x acc (.switch _ c a b) => [.ite c (.block [.assign x acc a]) (.block [.assign x acc b])]
  | .assign x acc (.arr _ vs) => elems x acc 0 vs
  | .assign x acc (.uni _ v n) => elems x acc 0 (List.replicate n v)
  | s => [s]

/-- Equalities of elements. -/
def eqElems : List (Expr K) → List (Expr K) → List (Stmt K)
  | l :: ls, r :: rs => .eqc l r :: eqElems ls rs
  | _, _ => []

/-- Equalities of the elements of a literal and a variable. -/
def eqVars (d : List Nat) (x : Name) (acc : List (Acc K)) : Nat → List (Expr K) → List (Stmt K)
  | _, [] => []
  | i, l :: ls => .eqc l (.var d.tail x (acc ++ [.fld i])) :: eqVars d x acc (i + 1) ls

/-- sugar_cleaner.rs:739-791 `lhe_array_ce` for an inline array and the other side.  Nothing is produced for a call or a conditional
expression.  (Line 778 keeps the dimensions of the whole variable, which are not read.) -/
def eqArr (vs : List (Expr K)) : Expr K → List (Stmt K)
  | .arr _ ws => eqElems vs ws
  | .uni _ w _ => eqElems vs (List.replicate vs.length w)
  | .var d x acc => eqVars d x acc 0 vs
  | _ => []

/-- sugar_cleaner.rs:720-737 `into_single_constraint_equality`.  (A uniform array on one side, which the grammar cannot produce,
panics in `lhe_array_ce`; here it is kept.) -/
def splitEq : Stmt K → List (Stmt K)
  | .eqc (.arr _ vs) r => eqArr vs r
  | .eqc l (.arr _ vs) => eqArr vs l
  | s => [s]

/-- sugar_cleaner.rs:558-568 `map_returns` with `split_return` (570-606). -/
def splitRets : List (Stmt K) → Nat → List (Stmt K)
  | [], _ => []
  | .ret e :: ss, k =>
    if isSugar e then
      .decl (.ret k) (dims e) :: (splitSub (.assign (.ret k) [] e) ++ .ret (.var (dims e) (.ret k) []) :: splitRets ss (k + 1))
    else .ret e :: splitRets ss k
  | s :: ss, k => s :: splitRets ss k

/-- sugar_cleaner.rs:86-100, the last three steps of `extend_block`. -/
def finish (ss : List (Stmt K)) (k : Nat) : List (Stmt K) :=
  splitRets ((ss.flatMap splitSub).flatMap splitEq) k

mutual
/-- sugar_cleaner.rs:55-78 `extend_statement` and the functions it calls (80-214): statements to be put in front, the changed
statement, next number.  (An initialisation block outside a block does not occur.) -/
def extS (S : Sem K) (mixed : Name → Bool) : Stmt K → Nat → List (Stmt K) × Stmt K × Nat
  | .decl x d, n => ([], .decl x d, n)
  | .assign x acc e, n =>
    let (ie, e', n1) := extE S mixed false e n
    let (ia, acc', n2) := extAs S mixed false acc n1
    (ie ++ ia, .assign x acc' e', n2)
  | .eqc l r, n =>
    let (il, l', n1) := extE S mixed false l n
    let (ir, r', n2) := extE S mixed false r n1
    (il ++ ir, .eqc l' r', n2)
  | .log args, n =>
    let (is, args', n1) := extEs S mixed false args n
    (is, .log args', n1)
  | .assert e, n =>
    let (is, e', n1) := extE S mixed false e n
    (is, .assert e', n1)
  | .ret e, n =>
    let (is, e', n1) := extE S mixed false e n
    (is, .ret e', n1)
  | .ite c a b, n =>
    let (ia, a', n1) := extS S mixed a n
    let (ib, b', n2) := extS S mixed b n1
    let (ic, c', n3) := extE S mixed false c n2
    let (fc, c'', n4) := filter1 c' n3
    (ia ++ ib ++ ic ++ fc, .ite c'' a' b', n4)
  | .loop c s, n =>
    let (is, s', n1) := extS S mixed s n
    let (ic, c', n2) := extE S mixed false c n1
    let (fc, c'', n3) := filter1 c' n2
    (is ++ ic ++ fc, .loop c'' s', n3)
  | .block ss, n =>
    let (ss', n') := extL S mixed ss n
    ([], .block (finish ss' n'), n)
  | .init ss, n => ([], .init ss, n)

/-- sugar_cleaner.rs:526-533 `map_stmts_with_sugar` after `map_init_blocks` (535-545). -/
def extL (S : Sem K) (mixed : Name → Bool) : List (Stmt K) → Nat → List (Stmt K) × Nat
  | [], n => ([], n)
  | .init is :: ss, n =>
    let (is', n1) := extL S mixed is n
    let (ss', n2) := extL S mixed ss n1
    (is' ++ ss', n2)
  | s :: ss, n =>
    let (is, s', n1) := extS S mixed s n
    let (ss', n2) := extL S mixed ss n1
    (is ++ s' :: ss', n2)
end

/-- sugar_cleaner.rs:36-53 `clean_sugar` for one template or function; its code is a block, nothing is put in front. -/
def clean (S : Sem K) (mixed : Name → Bool) (s : Stmt K) : Stmt K := (extS S mixed s 0).2.1

/-- All functions (no component is accessed in a function). -/
def cleanT (S : Sem K) (T : Table K) : Table K := fun f =>
  match T f with
  | none => none
  | some (xs, body) => some (xs, clean S (fun _ => false) body)

end

end Verif.Sugar
