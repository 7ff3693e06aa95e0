import Mathlib.Data.List.Basic

/-!
# Translation of code into instructions

Model of `compiler/src/intermediate_representation/translate.rs` (statements and expressions to buckets), of the passes that work on
the result (`ir_processing/reduce_stack.rs`, `ir_processing/set_arena_size.rs`), of the way `circuit_design/build.rs` puts functions
and templates together, and of what the buckets do in the C++ program (`produce_c` of the buckets).  Beside it a reference semantics
of the source: scopes of named arrays.

The code is what the passes before leave (see `Verif.Sugar`): no inline arrays, no conditional expressions, no initialisation
blocks.  Field elements are an arbitrary type `K`.  Not modelled: components and their signals, buses, parallel templates; the numbers
of temporaries (`Verif.Slots`); lines and messages.  Machine integers are unbounded (`Verif.Address` has the bounded ones), apart from
the conversion `Fr_toInt`.
-/

namespace Verif.Ir

/-- Identifiers. -/
abbrev Name := Nat

/-- program_structure/src/abstract_syntax_tree/ast.rs `ExpressionInfixOpcode`. -/
inductive Infix where
  | mul | div | add | sub | pow | intDiv | mod | shiftL | shiftR | lesserEq | greaterEq | lesser | greater | eq | notEq | boolOr
  | boolAnd | bitOr | bitAnd | bitXor
  deriving DecidableEq, Repr

/-- ast.rs `ExpressionPrefixOpcode`. -/
inductive Prefix where
  | sub | boolNot | complement
  deriving DecidableEq, Repr

/-- ast.rs `Expression`.  `var sig x idx`: `sig` is the annotation `get_reduces_to` (a signal or a variable), `idx` a chain of
indices (`icons`, `nil`).  `tag x fs` is `x.f1.f2…` naming a tag.  Arguments of calls are chains of `cons d e rest`; `d` is
`get_concrete_dimensions` of the argument. -/
inductive Expr where
  | num (n : Nat)
  | var (sig : Bool) (x : Name) (idx : Expr)
  | tag (x : Name) (fs : List Name)
  | inf (op : Infix) (l r : Expr)
  | pre (op : Prefix) (e : Expr)
  | call (f : Name) (args : Expr)
  | nil
  | cons (d : List Nat) (e rest : Expr)
  | icons (e rest : Expr)
  deriving DecidableEq, Repr

/-- ast.rs `LogArgument`. -/
inductive LogArg where
  | str (s : String)
  | exp (e : Expr)
  deriving DecidableEq, Repr

/-- ast.rs `Statement`.  The statements of a block are a chain (`nil`, `cons`); a missing `else` is `nil`.  `decl x d`: a variable;
`d` is `get_concrete_dimensions`. -/
inductive Stmt where
  | decl (x : Name) (d : List Nat)
  | assign (sig : Bool) (x : Name) (idx : Expr) (e : Expr)
  | eqc (l r : Expr)
  | assert (e : Expr)
  | ret (e : Expr)
  | log (args : List LogArg)
  | ite (c : Expr) (a b : Stmt)
  | loop (c : Expr) (s : Stmt)
  | block (ss : Stmt)
  | nil
  | cons (s ss : Stmt)
  deriving DecidableEq, Repr

/-! ## Reference semantics -/

/-- The arithmetic.  `toInt` is the signed number of a field element that fits into a machine integer. -/
structure Sem (K : Type) where
  lit : Nat → K
  inf : Infix → K → K → Option K
  pre : Prefix → K → Option K
  toInt : K → Option Int
  truthy : K → Bool

/-- What is needed of it: sums and products of small numbers are exact, and so are literals. -/
structure Laws {K : Type} (S : Sem K) : Prop where
  add : ∀ a b c x y z, S.inf .add a b = some c → S.toInt a = some x → S.toInt b = some y → S.toInt c = some z → z = x + y
  mul : ∀ a b c x y z, S.inf .mul a b = some c → S.toInt a = some x → S.toInt b = some y → S.toInt c = some z → z = x * y
  lit : ∀ n z, n < 2 ^ 64 → S.toInt (S.lit n) = some z → z = n

/-- Why there is no result: an `assert` or `===` fails, more steps are needed, the program has no meaning here (an index out of
range, a value that was never assigned, wrong dimensions; in the program also: an access outside of the memory). -/
inductive Err where
  | fail | more | stuck
  deriving DecidableEq, Repr

/-- What `log` prints. -/
inductive Ev (K : Type) where
  | str (s : String)
  | val (k : K)
  | endl

/-- Values: dimensions and the element at each position (`none`: never assigned). -/
structure Val (K : Type) where
  dims : List Nat
  el : List Nat → Option K

/-- A name: signal or variable, and its value. -/
structure Ent (K : Type) where
  sig : Bool
  val : Val K

/-- Scopes, innermost first. -/
abbrev Frames (K : Type) := List (List (Name × Ent K))

/-- Meaning of the functions. -/
abbrev Fns (K : Type) := Name → List (Val K) → Except Err (Val K × List (Ev K))

section
variable {K : Type}

/-- Find a name in a scope. -/
def findIn {α : Type} (x : Name) : List (Name × α) → Option α
  | [] => none
  | (y, e) :: r => if y = x then some e else findIn x r

/-- Find a name in the scopes: the innermost declaration counts. -/
def find {α : Type} (x : Name) : List (List (Name × α)) → Option α
  | [] => none
  | f :: fs =>
    match findIn x f with
    | some e => some e
    | none => find x fs

/-- Change a name in a scope. -/
def putIn {α : Type} (x : Name) (v : α) : List (Name × α) → List (Name × α)
  | [] => []
  | (y, e) :: r => if y = x then (y, v) :: r else (y, e) :: putIn x v r

/-- Change the innermost declaration of a name. -/
def put {α : Type} (x : Name) (v : α) : List (List (Name × α)) → List (List (Name × α))
  | [] => []
  | f :: fs =>
    match findIn x f with
    | some _ => putIn x v f :: fs
    | none => f :: put x v fs

/-- Declare a name in the innermost scope. -/
def declare {α : Type} (x : Name) (v : α) : List (List (Name × α)) → List (List (Name × α))
  | [] => []
  | f :: fs => ((x, v) :: f) :: fs

/-- Is this the position of an element or a sub-array? -/
def within : List Nat → List Nat → Bool
  | _, [] => true
  | [], _ :: _ => false
  | d :: ds, i :: is => decide (i < d) && within ds is

/-- All positions of elements, in lexicographic order. -/
def positions : List Nat → List (List Nat)
  | [] => [[]]
  | d :: ds => (List.range d).flatMap fun i => (positions ds).map (i :: ·)

/-- A single field element. -/
def scalar (k : K) : Val K := ⟨[], fun _ => some k⟩

/-- The field element of a value without dimensions. -/
def Val.num (v : Val K) : Option K := if v.dims = [] then v.el [] else none

/-- The part of a value at a position. -/
def Val.sub (v : Val K) (p : List Nat) : Val K := ⟨v.dims.drop p.length, fun q => v.el (p ++ q)⟩

/-- Replace the part of a value at a position. -/
def Val.upd (v : Val K) (p : List Nat) (w : Val K) : Val K :=
  ⟨v.dims, fun q => if q.take p.length = p then w.el (q.drop p.length) else v.el q⟩

/-- Storage of declared arrays. -/
def blank (d : List Nat) : Val K := ⟨d, fun _ => none⟩

/-- Indices of values. -/
def toPath (S : Sem K) : List (Val K) → Option (List Nat)
  | [] => some []
  | v :: vs =>
    match v.num with
    | none => none
    | some k =>
      match S.toInt k with
      | none => none
      | some z => if z < 0 then none else (toPath S vs).map (z.toNat :: ·)

/-- Result of an expression: its value; inside of an index (`ix`) it must be a machine integer (`Verif.Props.Address`, C64, has what
happens otherwise). -/
def result (S : Sem K) (ix : Bool) (v : Val K) (evs : List (Ev K)) : Except Err (List (Val K) × List (Ev K)) :=
  if ix then
    match v.num with
    | none => .error .stuck
    | some k => if (S.toInt k).isSome then .ok ([v], evs) else .error .stuck
  else .ok ([v], evs)

/-- Value of an expression, values of a chain, and the messages of called functions.  Operands, indices and arguments are evaluated
from left to right.  `ix`: the expression is an index, or an operand of a sum or product in an index. -/
def eval (S : Sem K) (tags : List Name → Option Nat) (F : Fns K) (E : Frames K) :
    Expr → Bool → Except Err (List (Val K) × List (Ev K))
  | .num n, ix => result S ix (scalar (S.lit n)) []
  | .tag x fs, ix =>
    match tags (x :: fs) with
    | none => .error .stuck
    | some n => result S ix (scalar (S.lit n)) []
  | .var sig x idx, ix =>
    match eval S tags F E idx false with
    | .error e => .error e
    | .ok (vs, evs) =>
      match find x E, toPath S vs with
      | some ent, some p =>
        if ent.sig = sig ∧ within ent.val.dims p = true then result S ix (ent.val.sub p) evs else .error .stuck
      | _, _ => .error .stuck
  | .inf op l r, ix =>
    match eval S tags F E l (ix && (op = .add || op = .mul)) with
    | .error e => .error e
    | .ok (vs, evs) =>
      match eval S tags F E r (ix && (op = .add || op = .mul)) with
      | .error e => .error e
      | .ok (ws, evs') =>
        match vs, ws with
        | [v], [w] =>
          match v.num, w.num with
          | some a, some b =>
            match S.inf op a b with
            | none => .error .stuck
            | some c => result S ix (scalar c) (evs ++ evs')
          | _, _ => .error .stuck
        | _, _ => .error .stuck
  | .pre op e, ix =>
    match eval S tags F E e false with
    | .error e => .error e
    | .ok ([v], evs) =>
      match v.num with
      | none => .error .stuck
      | some a =>
        match S.pre op a with
        | none => .error .stuck
        | some c => result S ix (scalar c) evs
    | .ok _ => .error .stuck
  | .call f args, ix =>
    match eval S tags F E args false with
    | .error e => .error e
    | .ok (vs, evs) =>
      match F f vs with
      | .error e => .error e
      | .ok (v, evs') => result S ix v (evs ++ evs')
  | .nil, _ => .ok ([], [])
  | .cons d e rest, _ =>
    match eval S tags F E e false with
    | .error e => .error e
    | .ok ([v], evs) =>
      if v.dims = d then
        match eval S tags F E rest false with
        | .error e => .error e
        | .ok (vs, evs') => .ok (v :: vs, evs ++ evs')
      else .error .stuck
    | .ok _ => .error .stuck
  | .icons e rest, _ =>
    match eval S tags F E e true with
    | .error e => .error e
    | .ok ([v], evs) =>
      match eval S tags F E rest false with
      | .error e => .error e
      | .ok (vs, evs') => .ok (v :: vs, evs ++ evs')
    | .ok _ => .error .stuck

/-- One value. -/
def eval1 (S : Sem K) (tags : List Name → Option Nat) (F : Fns K) (E : Frames K) (e : Expr) :
    Except Err (Val K × List (Ev K)) :=
  match eval S tags F E e false with
  | .error e => .error e
  | .ok ([v], evs) => .ok (v, evs)
  | .ok _ => .error .stuck

/-- One field element. -/
def evalK (S : Sem K) (tags : List Name → Option Nat) (F : Fns K) (E : Frames K) (e : Expr) :
    Except Err (K × List (Ev K)) :=
  match eval1 S tags F E e with
  | .error e => .error e
  | .ok (v, evs) =>
    match v.num with
    | none => .error .stuck
    | some k => .ok (k, evs)

/-- The arguments of `log`, with an end of line. -/
def logArgs (S : Sem K) (tags : List Name → Option Nat) (F : Fns K) (E : Frames K) :
    List LogArg → Except Err (List (Ev K))
  | [] => .ok [.endl]
  | .str s :: r =>
    match logArgs S tags F E r with
    | .error e => .error e
    | .ok evs => .ok (.str s :: evs)
  | .exp e :: r =>
    match evalK S tags F E e with
    | .error e => .error e
    | .ok (k, evs) =>
      match logArgs S tags F E r with
      | .error e => .error e
      | .ok evs' => .ok (evs ++ .val k :: evs')

/-- Are two values equal in all elements (`none`: an element is missing)? -/
def equal (S : Sem K) (v w : Val K) : List (List Nat) → Option Bool
  | [] => some true
  | p :: ps =>
    match v.el p, w.el p, equal S v w ps with
    | some a, some b, some r =>
      match S.inf .eq a b with
      | none => none
      | some c => some (S.truthy c && r)
    | _, _, _ => none

/-- State, messages, returned value if a `return` was reached. -/
abbrev Step (σ ρ K : Type) := Except Err (σ × List (Ev K) × Option ρ)

/-- At most `k` rounds of a loop. -/
def iter {σ ρ : Type} (c : σ → Except Err (Bool × List (Ev K))) (body : σ → Step σ ρ K) : Nat → σ → Step σ ρ K
  | 0, _ => .error .more
  | k + 1, s =>
    match c s with
    | .error e => .error e
    | .ok (false, evs) => .ok (s, evs, none)
    | .ok (true, evs) =>
      match body s with
      | .error e => .error e
      | .ok (s', evs', some r) => .ok (s', evs ++ evs', some r)
      | .ok (s', evs', none) =>
        match iter c body k s' with
        | .error e => .error e
        | .ok (s'', evs'', r) => .ok (s'', evs ++ evs' ++ evs'', r)

/-- Assignment of a value to a part of a name; dimensions must be the same (C68 has what happens otherwise). -/
def assignTo (sig : Bool) (x : Name) (p : List Nat) (v : Val K) (E : Frames K) : Except Err (Frames K) :=
  match find x E with
  | none => .error .stuck
  | some ent =>
    if ent.sig = sig ∧ within ent.val.dims p = true ∧ v.dims = ent.val.dims.drop p.length then
      .ok (put x ⟨sig, ent.val.upd p v⟩ E)
    else .error .stuck

/-- Execution with at most `n` rounds of each loop.  `chk`: are the equalities `===` checked?  Arrays without elements are left
out. -/
def exec (S : Sem K) (tags : List Name → Option Nat) (chk : Bool) (F : Fns K) (n : Nat) :
    Stmt → Frames K → Step (Frames K) (Val K) K
  | .decl x d, E => if 0 ∈ d then .error .stuck else .ok (declare x ⟨false, blank d⟩ E, [], none)
  | .assign sig x idx (.call f args), E =>
    match eval S tags F E args false with
    | .error e => .error e
    | .ok (vs, evs) =>
      match eval S tags F E idx false with
      | .error e => .error e
      | .ok (is, evs') =>
        match F f vs with
        | .error e => .error e
        | .ok (v, evs'') =>
          match toPath S is with
          | none => .error .stuck
          | some p =>
            match assignTo sig x p v E with
            | .error e => .error e
            | .ok E' => .ok (E', evs ++ evs' ++ evs'', none)
  | .assign sig x idx e, E =>
    match eval S tags F E idx false with
    | .error e => .error e
    | .ok (is, evs) =>
      match eval1 S tags F E e with
      | .error e => .error e
      | .ok (v, evs') =>
        match toPath S is with
        | none => .error .stuck
        | some p =>
          match assignTo sig x p v E with
          | .error e => .error e
          | .ok E' => .ok (E', evs ++ evs', none)
  | .eqc l r, E =>
    if chk then
      match eval1 S tags F E l with
      | .error e => .error e
      | .ok (v, evs) =>
        match eval1 S tags F E r with
        | .error e => .error e
        | .ok (w, evs') =>
          if v.dims = w.dims then
            match equal S v w (positions v.dims) with
            | none => .error .stuck
            | some true => .ok (E, evs ++ evs', none)
            | some false => .error .fail
          else .error .stuck
    else .ok (E, [], none)
  | .assert e, E =>
    match evalK S tags F E e with
    | .error e => .error e
    | .ok (k, evs) => if S.truthy k then .ok (E, evs, none) else .error .fail
  | .ret e, E =>
    match eval1 S tags F E e with
    | .error e => .error e
    | .ok (v, evs) => .ok (E, evs, some v)
  | .log args, E =>
    match logArgs S tags F E args with
    | .error e => .error e
    | .ok evs => .ok (E, evs, none)
  | .ite c a b, E =>
    match evalK S tags F E c with
    | .error e => .error e
    | .ok (k, evs) =>
      match (if S.truthy k then exec S tags chk F n a E else exec S tags chk F n b E) with
      | .error e => .error e
      | .ok (E', evs', r) => .ok (E', evs ++ evs', r)
  | .loop c s, E =>
    iter (fun E =>
        match evalK S tags F E c with
        | .error e => .error e
        | .ok (k, evs) => .ok (S.truthy k, evs))
      (exec S tags chk F n s) n E
  | .block ss, E =>
    match exec S tags chk F n ss ([] :: E) with
    | .error e => .error e
    | .ok (E', evs, r) => .ok (E'.tail, evs, r)
  | .nil, E => .ok (E, [], none)
  | .cons s ss, E =>
    match exec S tags chk F n s E with
    | .error e => .error e
    | .ok (E', evs, some r) => .ok (E', evs, some r)
    | .ok (E', evs, none) =>
      match exec S tags chk F n ss E' with
      | .error e => .error e
      | .ok (E'', evs', r) => .ok (E'', evs ++ evs', r)

/-- A function: parameters with their dimensions, dimensions of the result (`VCF`, hir/very_concrete_program.rs), body. -/
structure Fn where
  name : Name
  params : List (Name × List Nat)
  rdims : List Nat
  body : Stmt
  deriving DecidableEq, Repr

/-- Function of a name. -/
def fnOf (P : List Fn) (f : Name) : Option Fn := P.find? fun g => g.name = f

/-- The scope a function body starts with. -/
def bindParams : List (Name × List Nat) → List (Val K) → List (Name × Ent K) → Option (List (Name × Ent K))
  | [], [], acc => some acc
  | (x, d) :: ps, v :: vs, acc => if v.dims = d then bindParams ps vs ((x, ⟨false, v⟩) :: acc) else none
  | _, _, _ => none

/-- Meaning of the functions: calls nested at most `n` deep. -/
def callN (S : Sem K) (chk : Bool) (P : List Fn) : Nat → Fns K
  | 0 => fun _ _ => .error .more
  | n + 1 => fun f args =>
    match fnOf P f with
    | none => .error .stuck
    | some g =>
      match bindParams g.params args [] with
      | none => .error .stuck
      | some fr =>
        match exec S (fun _ => none) chk (callN S chk P n) n g.body [fr] with
        | .error e => .error e
        | .ok (_, evs, some v) => if v.dims = g.rdims then .ok (v, evs) else .error .stuck
        | .ok (_, _, none) => .error .stuck

end

/-! ### Shape of programs -/

/-- Is this an expression (and not a chain)? -/
def Expr.isVal : Expr → Bool
  | .nil => false
  | .cons _ _ _ => false
  | .icons _ _ => false
  | _ => true

/-- Chain of arguments. -/
def Expr.isArgs : Expr → Bool
  | .nil => true
  | .cons _ _ _ => true
  | _ => false

/-- Chain of indices. -/
def Expr.isIdx : Expr → Bool
  | .nil => true
  | .icons _ _ => true
  | _ => false

/-- Chains are where they belong, and calls inside of expressions are calls of functions that return a field element (what a call
with `ReturnType::Intermediate` has place for); `rd` has the dimensions of the results. -/
def Expr.ok (rd : Name → Option (List Nat)) : Expr → Bool
  | .num _ => true
  | .var _ _ idx => idx.isIdx && idx.ok rd
  | .tag _ _ => true
  | .inf _ l r => l.isVal && l.ok rd && r.isVal && r.ok rd
  | .pre _ e => e.isVal && e.ok rd
  | .call f args => decide (rd f = some []) && args.isArgs && args.ok rd
  | .nil => true
  | .cons _ e rest => e.isVal && e.ok rd && rest.isArgs && rest.ok rd
  | .icons e rest => e.isVal && e.ok rd && rest.isIdx && rest.ok rd

/-- Declarations are in blocks. -/
def Stmt.closed : Stmt → Bool
  | .decl _ _ => false
  | .cons s ss => s.closed && ss.closed
  | .ite _ a b => a.closed && b.closed
  | .loop _ s => s.closed
  | _ => true

/-- The shape of statements: see `Expr.ok`; the branches of conditionals and the bodies of loops do not declare anything outside of a
block (the parser only has statements without declarations there). -/
def Stmt.ok (rd : Name → Option (List Nat)) : Stmt → Bool
  | .decl _ _ => true
  | .assign _ _ idx (.call _ args) => idx.isIdx && idx.ok rd && args.isArgs && args.ok rd
  | .assign _ _ idx e => idx.isIdx && idx.ok rd && e.isVal && e.ok rd
  | .eqc l r => l.isVal && l.ok rd && r.isVal && r.ok rd
  | .assert e => e.isVal && e.ok rd
  | .ret e => e.isVal && e.ok rd
  | .log args => args.all fun
    | .str _ => true
    | .exp e => e.isVal && e.ok rd
  | .ite c a b => c.isVal && c.ok rd && a.closed && a.ok rd && b.closed && b.ok rd
  | .loop c s => c.isVal && c.ok rd && s.closed && s.ok rd
  | .block ss => ss.ok rd
  | .nil => true
  | .cons s ss => s.ok rd && ss.ok rd

/-- Functions called. -/
def Expr.calls : Expr → List Name
  | .num _ => []
  | .var _ _ idx => idx.calls
  | .tag _ _ => []
  | .inf _ l r => l.calls ++ r.calls
  | .pre _ e => e.calls
  | .call f args => f :: args.calls
  | .nil => []
  | .cons _ e rest => e.calls ++ rest.calls
  | .icons e rest => e.calls ++ rest.calls

/-- Functions called in the arguments of `log`. -/
def Stmt.logCalls : Stmt → List Name
  | .log args => args.flatMap fun
    | .str _ => []
    | .exp e => e.calls
  | .ite _ a b => a.logCalls ++ b.logCalls
  | .loop _ s => s.logCalls
  | .block ss => ss.logCalls
  | .cons s ss => s.logCalls ++ ss.logCalls
  | _ => []

/-- Dimensions of the results of functions. -/
def rdimsOf (P : List Fn) (f : Name) : Option (List Nat) := (fnOf P f).map (·.rdims)

/-! ## Instructions -/

/-- compute_bucket.rs:7-34 `OperatorType`; `Eq` with a size known at compile time. -/
inductive Oper where
  | mul | div | add | sub | pow | intDiv | mod | shiftL | shiftR | lesserEq | greaterEq | lesser | greater | eq (n : Nat) | notEq
  | boolOr | boolAnd | bitOr | bitAnd | bitXor
  | prefixSub | boolNot | complement
  | toAddress | mulAddress | addAddress
  deriving DecidableEq, Repr

/-- Instructions with a value (ir_interface.rs:43-55): `ValueBucket` (`u32`, `big`: number of the constant), `LoadBucket` of a
variable or a signal of the template, `ComputeBucket` with one or two operands, `CallBucket` with `ReturnType::Intermediate`.
Arguments are a chain of sizes and instructions. -/
inductive I where
  | u32 (n : Nat)
  | big (cid : Nat)
  | load (sig : Bool) (loc : I) (size : Nat)
  | comp1 (o : Oper) (a : I)
  | comp2 (o : Oper) (a b : I)
  | call (f : Name) (args : I) (arena : Nat)
  | nil
  | cons (size : Nat) (a rest : I)
  deriving DecidableEq, Repr

/-- log_bucket.rs `LogBucketArg`. -/
inductive LogI where
  | str (k : Nat)
  | exp (e : I)
  deriving DecidableEq, Repr

/-- Instructions without a value: `StoreBucket`, `CallBucket` with `ReturnType::Final`, `BranchBucket`, `LoopBucket`, `ReturnBucket`,
`AssertBucket` (`eqc` is `is_constraint_equality`), `LogBucket`; lists are chains. -/
inductive IS where
  | store (sig : Bool) (loc src : I) (dsize ssize : Nat)
  | callTo (sig : Bool) (loc : I) (dsize : Nat) (f : Name) (args : I) (arena : Nat)
  | branch (c : I) (a b : IS)
  | loop (c : I) (body : IS)
  | ret (size : Nat) (e : I)
  | assert (eqc : Bool) (e : I)
  | log (args : List LogI)
  | nil
  | cons (s ss : IS)
  deriving DecidableEq, Repr

/-- Lists one after the other. -/
def IS.append : IS → IS → IS
  | .nil, t => t
  | .cons s ss, t => .cons s (ss.append t)
  | s, t => .cons s t

/-- The instructions of a chain. -/
def I.list : I → List I
  | .cons _ a rest => a :: rest.list
  | _ => []

/-! ## Translation -/

/-- translate.rs:19-26 `SymbolInfo`: address (`access_instruction` is a number), dimensions, size.  `sig` is not in the code: it
tells in which memory the address lies. -/
structure Info where
  addr : Nat
  dims : List Nat
  size : Nat
  sig : Bool
  deriving DecidableEq, Repr

/-- Environment of the translation. -/
abbrev TEnv := List (List (Name × Info))

/-- translate.rs:130-146 `State`: environment, `variable_stack`, `max_stack_depth`, `field_tracker`, `string_table` (a list: the
number of a text is its position). -/
structure TSt where
  env : TEnv
  stack : Nat
  depth : Nat
  consts : List Nat
  strings : List String
  deriving DecidableEq, Repr

/-- Number of an entry, which is appended if it is new: constant_tracking/src/lib.rs:25-34 `insert` (`Verif.Storage` has the table of
the real tracker), and the same for texts (translate.rs:764-770). -/
def intern {α : Type} [DecidableEq α] (C : List α) (a : α) : Nat × List α :=
  if a ∈ C then (C.idxOf a, C) else (C.length, C ++ [a])

/-- translate.rs:963-987 `translate_infix_operator`. -/
def trInfix : Infix → Oper
  | .mul => .mul
  | .div => .div
  | .add => .add
  | .sub => .sub
  | .pow => .pow
  | .intDiv => .intDiv
  | .mod => .mod
  | .shiftL => .shiftL
  | .shiftR => .shiftR
  | .lesserEq => .lesserEq
  | .greaterEq => .greaterEq
  | .lesser => .lesser
  | .greater => .greater
  | .eq => .eq 1
  | .notEq => .notEq
  | .boolOr => .boolOr
  | .boolAnd => .boolAnd
  | .bitOr => .bitOr
  | .bitAnd => .bitAnd
  | .bitXor => .bitXor

/-- translate.rs:989-996 `translate_prefix_operator`. -/
def trPrefix : Prefix → Oper
  | .sub => .prefixSub
  | .boolNot => .boolNot
  | .complement => .complement

/-- translate.rs:1666-1728 `check_if_possible_to_usize_single` and `_multiple`: (can be computed with machine integers, is a small
number).  Not a number in the table of constants: the `unwrap` panics (`none`). -/
def check (C : List Nat) : I → Option (Bool × Bool)
  | .u32 n => some (true, decide (n < 100))
  | .big cid =>
    match C[cid]? with
    | none => none
    | some n => some (if n < 2 ^ 64 then (true, decide (n < 100)) else (false, false))
  | .comp2 .add a b =>
    match check C a, check C b with
    | some (ua, _), some (ub, _) => some (ua && ub, false)
    | _, _ => none
  | .comp2 .mul a b =>
    match check C a, check C b with
    | some (ua, sa), some (ub, sb) => some (ua && ub && (sa || sb), false)
    | _, _ => none
  | .comp2 _ _ _ => some (false, false)
  | .comp1 _ _ => some (false, false)
  | _ => some (true, false)

/-- translate.rs:1730-1795 `convert_to_usize_single` and `_multiple`; `unreachable!()` is `none`. -/
def convert (C : List Nat) : I → Option I
  | .u32 n => some (.u32 n)
  | .big cid =>
    match C[cid]? with
    | none => none
    | some n => if n < 2 ^ 64 then some (.u32 n) else none
  | .comp2 .add a b =>
    match convert C a, convert C b with
    | some a', some b' => some (.comp2 .addAddress a' b')
    | _, _ => none
  | .comp2 .mul a b =>
    match convert C a, convert C b with
    | some a', some b' => some (.comp2 .mulAddress a' b')
    | _, _ => none
  | .comp2 _ _ _ => none
  | .comp1 _ _ => none
  | i => some (.comp1 .toAddress i)

/-- The body of the loop of translate.rs:1638-1664 `indexing_instructions_filter`. -/
def filterOne (C : List Nat) (i : I) : Option I :=
  match check C i with
  | none => none
  | some (true, _) => convert C i
  | some (false, _) => some (.comp1 .toAddress i)

/-- translate.rs:1564-1590, the part of `compute_full_address` for one symbol: a product for each index; `len` is `linear_length`,
the dimensions are still to be popped. -/
def jumps (C : List Nat) : Nat → List Nat → List I → Option (List I)
  | _, _, [] => some []
  | _, [], _ :: _ => none
  | len, d :: ds, i :: is =>
    if d = 0 then none
    else
      match filterOne C i, jumps C (len / d) ds is with
      | some i', some js => some (.comp2 .mulAddress (.u32 (len / d)) i' :: js)
      | _, _ => none

/-- translate.rs:1797-1813 `fold`, the stack from bottom to top. -/
def foldStack : List I → Option I
  | [] => none
  | i :: is => some (is.foldl (fun acc x => .comp2 .addAddress acc x) i)

/-- translate.rs:1548-1636 `compute_full_address` without accesses to fields of buses. -/
def fullAddress (C : List Nat) (info : Info) (is : List I) : Option I :=
  match jumps C info.size info.dims is with
  | none => none
  | some js => foldStack (js ++ [.u32 info.addr])

/-- translate.rs:1148-1157 in `ProcessedSymbol::new`: each index pops a dimension and divides the size by it. -/
def accSize : Nat → List Nat → List I → Option Nat
  | size, _, [] => some size
  | _, [], _ :: _ => none
  | size, d :: ds, _ :: is => if d = 0 then none else accSize (size / d) ds is

/-- translate.rs:806-961 and 1817-1835: expressions, chains of indices (the loop of `ProcessedSymbol::new`, 1146-1160) and of
arguments (`translate_call_arguments`).  `none` is a panic. -/
def trE (tags : List Name → Option Nat) (env : TEnv) : Expr → List Nat → Option (I × List Nat)
  | .num n, C => some (.big (intern C n).1, (intern C n).2)
  | .tag x fs, C =>
    match find x env, tags (x :: fs) with
    | some _, some n => some (.big (intern C n).1, (intern C n).2)
    | _, _ => none
  | .var sig x idx, C =>
    match find x env, trE tags env idx C with
    | some info, some (ix, C') =>
      match accSize info.size info.dims ix.list, fullAddress C' info ix.list with
      | some size, some loc => some (.load sig loc size, C')
      | _, _ => none
    | _, _ => none
  | .inf op l r, C =>
    match trE tags env l C with
    | none => none
    | some (l', C') =>
      match trE tags env r C' with
      | none => none
      | some (r', C'') => some (.comp2 (trInfix op) l' r', C'')
  | .pre op e, C =>
    match trE tags env e C with
    | none => none
    | some (e', C') => some (.comp1 (trPrefix op) e', C')
  | .call f args, C =>
    match trE tags env args C with
    | none => none
    | some (as, C') => some (.call f as 200, C')
  | .nil, C => some (.nil, C)
  | .cons d e rest, C =>
    match trE tags env e C with
    | none => none
    | some (e', C') =>
      match trE tags env rest C' with
      | none => none
      | some (r', C'') => some (.cons (d.foldl (· * ·) 1) e' r', C'')
  | .icons e rest, C =>
    match trE tags env e C with
    | none => none
    | some (e', C') =>
      match trE tags env rest C' with
      | none => none
      | some (r', C'') => some (.cons 0 e' r', C'')

/-- `ProcessedSymbol::new` (translate.rs:1103-1354) without components and buses: address and size of an access. -/
def symbol (tags : List Name → Option Nat) (env : TEnv) (x : Name) (idx : Expr) (C : List Nat) : Option (I × Nat × List Nat) :=
  match find x env, trE tags env idx C with
  | some info, some (ix, C') =>
    match accSize info.size info.dims ix.list, fullAddress C' info ix.list with
    | some size, some loc => some (loc, size, C')
    | _, _ => none
  | _, _ => none

/-- translate.rs:1839-1894 `get_expression_size`, `get_variable_size`: the indices of a variable are translated for it, which may
add constants. -/
def exprSize (tags : List Name → Option Nat) (env : TEnv) : Expr → List Nat → Option (Nat × List Nat)
  | .var _ x idx, C =>
    match symbol tags env x idx C with
    | some (_, size, C') => some (size, C')
    | none => none
  | .inf _ _ _, C => some (1, C)
  | .pre _ _, C => some (1, C)
  | .num _, C => some (1, C)
  | .tag x fs, C =>
    match find x env, tags (x :: fs) with
    | some _, some _ => some (1, C)
    | _, _ => none
  | _, _ => none

/-- translate.rs:683-712: the number of elements compared by `===` is that of the right side if it is a variable.  The tag of a
signal is a variable with an access for this code, and `ProcessedSymbol::new` panics on it (1262-1264). -/
def eqSize (tags : List Name → Option Nat) (env : TEnv) : Expr → List Nat → Option (Nat × List Nat)
  | .var _ x idx, C =>
    match symbol tags env x idx C with
    | some (_, size, C') => some (size, C')
    | none => none
  | .tag _ _, _ => none
  | _, C => some (1, C)

/-- translate.rs:752-783 `translate_log`. -/
def trLog (tags : List Name → Option Nat) (env : TEnv) :
    List LogArg → List Nat → List String → Option (List LogI × List Nat × List String)
  | [], C, T => some ([], C, T)
  | .str s :: r, C, T =>
    match trLog tags env r C (intern T s).2 with
    | none => none
    | some (is, C', T') => some (.str (intern T s).1 :: is, C', T')
  | .exp e :: r, C, T =>
    match trE tags env e C with
    | none => none
    | some (i, C') =>
      match trLog tags env r C' T with
      | none => none
      | some (is, C'', T') => some (.exp i :: is, C'', T')

/-- translate.rs:513-804 `translate_statement` and the functions it calls.  The new instructions are returned instead of being
pushed to `code`. -/
def trS (tags : List Name → Option Nat) : Stmt → TSt → Option (IS × TSt)
  | .decl x d, t =>
    some (.nil, { t with
      env := declare x ⟨t.stack, d, d.foldl (· * ·) 1, false⟩ t.env
      stack := t.stack + d.foldl (· * ·) 1
      depth := max t.depth (t.stack + d.foldl (· * ·) 1) })
  | .assign sig x idx (.call f args), t =>
    match symbol tags t.env x idx t.consts with
    | none => none
    | some (loc, size, C) =>
      match trE tags t.env args C with
      | none => none
      | some (as, C') => some (.cons (.callTo sig loc size f as 200) .nil, { t with consts := C' })
  | .assign sig x idx e, t =>
    match symbol tags t.env x idx t.consts with
    | none => none
    | some (loc, size, C) =>
      match exprSize tags t.env e C with
      | none => none
      | some (ssize, C1) =>
        match trE tags t.env e C1 with
        | none => none
        | some (src, C2) => some (.cons (.store sig loc src size ssize) .nil, { t with consts := C2 })
  | .eqc l r, t =>
    match eqSize tags t.env r t.consts with
    | none => none
    | some (n, C) =>
      match trE tags t.env l C with
      | none => none
      | some (l', C1) =>
        match trE tags t.env r C1 with
        | none => none
        | some (r', C2) => some (.cons (.assert true (.comp2 (.eq n) l' r')) .nil, { t with consts := C2 })
  | .assert e, t =>
    match trE tags t.env e t.consts with
    | none => none
    | some (e', C) => some (.cons (.assert false e') .nil, { t with consts := C })
  | .ret e, t =>
    match exprSize tags t.env e t.consts with
    | none => none
    | some (size, C) =>
      match trE tags t.env e C with
      | none => none
      | some (e', C1) => some (.cons (.ret size e') .nil, { t with consts := C1 })
  | .log args, t =>
    match trLog tags t.env args t.consts t.strings with
    | none => none
    | some (is, C, T) => some (.cons (.log is) .nil, { t with consts := C, strings := T })
  | .ite c a b, t =>
    match trE tags t.env c t.consts with
    | none => none
    | some (c', C) =>
      match trS tags a { t with consts := C } with
      | none => none
      | some (a', t1) =>
        match trS tags b t1 with
        | none => none
        | some (b', t2) => some (.cons (.branch c' a' b') .nil, t2)
  | .loop c s, t =>
    match trE tags t.env c t.consts with
    | none => none
    | some (c', C) =>
      match trS tags s { t with consts := C } with
      | none => none
      | some (s', t1) => some (.cons (.loop c' s') .nil, t1)
  | .block ss, t =>
    match trS tags ss { t with env := [] :: t.env } with
    | none => none
    | some (ss', t1) => some (ss', { t1 with env := t1.env.tail, stack := t.stack })
  | .nil, t => some (.nil, t)
  | .cons s ss, t =>
    match trS tags s t with
    | none => none
    | some (s', t1) =>
      match trS tags ss t1 with
      | none => none
      | some (ss', t2) => some (s'.append ss', t2)

/-- translate.rs:205-229 `initialize_parameters`. -/
def initParams : List (Name × List Nat) → TSt → TSt
  | [], t => t
  | (x, d) :: ps, t =>
    initParams ps { t with
      env := declare x ⟨t.stack, d, d.foldl (· * ·) 1, false⟩ t.env
      stack := t.stack + d.foldl (· * ·) 1
      depth := max t.depth (t.stack + d.foldl (· * ·) 1) }

/-- translate.rs:299-337 `initialize_signals`; `n` is `signal_stack`. -/
def initSignals : List (Name × List Nat) → Nat → TSt → Nat × TSt
  | [], n, t => (n, t)
  | (x, d) :: ps, n, t =>
    initSignals ps (n + d.foldl (· * ·) 1) { t with env := declare x ⟨n, d, d.foldl (· * ·) 1, true⟩ t.env }

/-- translate.rs:255-295: one store for each value of a constant. -/
def constStores (addr : Nat) : Nat → List Nat → List Nat → IS × List Nat
  | _, [], C => (.nil, C)
  | i, v :: vs, C =>
    let (r, C') := constStores addr (i + 1) vs (intern C v).2
    (.cons (.store false (.comp2 .addAddress (.u32 addr) (.u32 i)) (.big (intern C v).1) 1 1) r, C')

/-- translate.rs:231-297 `initialize_constants`: the parameters of the template with their values. -/
def initConsts : List (Name × List Nat × List Nat) → TSt → IS × TSt
  | [], t => (.nil, t)
  | (x, d, vs) :: r, t =>
    let (code, C) := constStores t.stack 0 vs t.consts
    let (code', t') := initConsts r { t with
      env := declare x ⟨t.stack, d, d.foldl (· * ·) 1, false⟩ t.env
      stack := t.stack + d.foldl (· * ·) 1
      depth := max t.depth (t.stack + d.foldl (· * ·) 1)
      consts := C }
    (code.append code', t')

/-! ## Passes on instructions -/

/-- ir_processing/reduce_stack.rs:28-70 `reduce_compute`, `reduce_operands` and the visit of all instructions with a value; an
overflow of `usize` is a panic. -/
def reduceI : I → Option I
  | .u32 n => some (.u32 n)
  | .big c => some (.big c)
  | .load sig loc size => (reduceI loc).map fun l => .load sig l size
  | .comp1 o a => (reduceI a).map (.comp1 o)
  | .comp2 o a b =>
    match reduceI a, reduceI b with
    | some a', some b' =>
      match o, a', b' with
      | .mulAddress, .u32 x, .u32 y => if x * y < 2 ^ 64 then some (.u32 (x * y)) else none
      | .addAddress, .u32 x, .u32 y => if x + y < 2 ^ 64 then some (.u32 (x + y)) else none
      | _, _, _ => some (.comp2 o a' b')
    | _, _ => none
  | .call f args arena => (reduceI args).map fun a => .call f a arena
  | .nil => some .nil
  | .cons n a r =>
    match reduceI a, reduceI r with
    | some a', some r' => some (.cons n a' r')
    | _, _ => none

/-- reduce_stack.rs:83-101 `reduce_log`. -/
def reduceLog : List LogI → Option (List LogI)
  | [] => some []
  | .str k :: r => (reduceLog r).map (.str k :: ·)
  | .exp e :: r =>
    match reduceI e, reduceLog r with
    | some e', some r' => some (.exp e' :: r')
    | _, _ => none

/-- reduce_stack.rs:3-26, 77-141: the visit of the other instructions. -/
def reduceS : IS → Option IS
  | .store sig loc src d s =>
    match reduceI loc, reduceI src with
    | some l, some r => some (.store sig l r d s)
    | _, _ => none
  | .callTo sig loc d f args arena =>
    match reduceI loc, reduceI args with
    | some l, some a => some (.callTo sig l d f a arena)
    | _, _ => none
  | .branch c a b =>
    match reduceI c, reduceS a, reduceS b with
    | some c', some a', some b' => some (.branch c' a' b')
    | _, _, _ => none
  | .loop c s =>
    match reduceI c, reduceS s with
    | some c', some s' => some (.loop c' s')
    | _, _ => none
  | .ret n e => (reduceI e).map (.ret n)
  | .assert q e => (reduceI e).map (.assert q)
  | .log args => (reduceLog args).map .log
  | .nil => some .nil
  | .cons s ss =>
    match reduceS s, reduceS ss with
    | some s', some ss' => some (.cons s' ss')
    | _, _ => none

/-- ir_processing/set_arena_size.rs:39-50 `visit_call` and the visit of all instructions with a value; a function without entry
panics. -/
def arenaI (A : Name → Option Nat) : I → Option I
  | .u32 n => some (.u32 n)
  | .big c => some (.big c)
  | .load sig loc size => (arenaI A loc).map fun l => .load sig l size
  | .comp1 o a => (arenaI A a).map (.comp1 o)
  | .comp2 o a b =>
    match arenaI A a, arenaI A b with
    | some a', some b' => some (.comp2 o a' b')
    | _, _ => none
  | .call f args _ =>
    match A f, arenaI A args with
    | some n, some a => some (.call f a n)
    | _, _ => none
  | .nil => some .nil
  | .cons n a r =>
    match arenaI A a, arenaI A r with
    | some a', some r' => some (.cons n a' r')
    | _, _ => none

/-- set_arena_size.rs:4-37, 70-98: the visit of the other instructions.  `visit_log` (79-86) works on a copy of the arguments, which
it drops. -/
def arenaS (A : Name → Option Nat) : IS → Option IS
  | .store sig loc src d s =>
    match arenaI A loc, arenaI A src with
    | some l, some r => some (.store sig l r d s)
    | _, _ => none
  | .callTo sig loc d f args _ =>
    match A f, arenaI A loc, arenaI A args with
    | some n, some l, some a => some (.callTo sig l d f a n)
    | _, _, _ => none
  | .branch c a b =>
    match arenaI A c, arenaS A a, arenaS A b with
    | some c', some a', some b' => some (.branch c' a' b')
    | _, _, _ => none
  | .loop c s =>
    match arenaI A c, arenaS A s with
    | some c', some s' => some (.loop c' s')
    | _, _ => none
  | .ret n e => (arenaI A e).map (.ret n)
  | .assert q e => (arenaI A e).map (.assert q)
  | .log args => some (.log args)
  | .nil => some .nil
  | .cons s ss =>
    match arenaS A s, arenaS A ss with
    | some s', some ss' => some (.cons s' ss')
    | _, _ => none

/-! ## Whole programs -/

/-- A compiled function: number of variables, code. -/
structure FnCode where
  name : Name
  vars : Nat
  body : IS
  deriving DecidableEq, Repr

/-- translate.rs:1936-1978 `translate_code` for a function (`build_function_instances`, circuit_design/build.rs:146-199). -/
def compileFn (g : Fn) (C : List Nat) (T : List String) : Option (FnCode × List Nat × List String) :=
  match trS (fun _ => none) g.body (initParams g.params ⟨[[]], 0, 0, C, T⟩) with
  | none => none
  | some (code, t) =>
    match reduceS code with
    | none => none
    | some code' => some (⟨g.name, t.depth, code'⟩, t.consts, t.strings)

/-- The loop over the functions. -/
def compileFns : List Fn → List Nat → List String → Option (List FnCode × List Nat × List String)
  | [], C, T => some ([], C, T)
  | g :: gs, C, T =>
    match compileFn g C T with
    | none => none
    | some (c, C', T') =>
      match compileFns gs C' T' with
      | none => none
      | some (cs, C'', T'') => some (c :: cs, C'', T'')

/-- A template instance: signals, parameters with their values, tags, code. -/
structure Tmpl where
  signals : List (Name × List Nat)
  consts : List (Name × List Nat × List Nat)
  tags : List (List Name × Nat)
  body : Stmt

/-- `signals_to_tags` of the instance. -/
def Tmpl.tag (t : Tmpl) (k : List Name) : Option Nat := (t.tags.find? fun e => e.1 = k).map (·.2)

/-- A compiled template: number of signals, number of variables, code. -/
structure TmplCode where
  sigs : Nat
  vars : Nat
  body : IS
  deriving DecidableEq, Repr

/-- translate.rs:1936-1978 `translate_code` for a template (`build_template_instances`, circuit_design/build.rs:24-144). -/
def compileTmpl (p : Tmpl) (C : List Nat) (T : List String) : Option (TmplCode × List Nat × List String) :=
  let (n, t0) := initSignals p.signals 0 ⟨[[]], 0, 0, C, T⟩
  let (code0, t1) := initConsts p.consts t0
  match trS p.tag p.body t1 with
  | none => none
  | some (code, t2) =>
    match reduceS (code0.append code) with
    | none => none
    | some code' => some (⟨n, t2.depth, code'⟩, t2.consts, t2.strings)

/-- The loop over the templates. -/
def compileTmpls : List Tmpl → List Nat → List String → Option (List TmplCode × List Nat × List String)
  | [], C, T => some ([], C, T)
  | g :: gs, C, T =>
    match compileTmpl g C T with
    | none => none
    | some (c, C', T') =>
      match compileTmpls gs C' T' with
      | none => none
      | some (cs, C'', T'') => some (c :: cs, C'', T'')

/-- A compiled program: functions, templates, constants, texts. -/
structure Code where
  fns : List FnCode
  tmpls : List TmplCode
  consts : List Nat
  strings : List String
  deriving DecidableEq, Repr

/-- `function_to_arena_size` (build.rs:153, 195): a later function with the same name replaces an earlier one. -/
def arenaOf (fs : List FnCode) (f : Name) : Option Nat := (fs.reverse.find? fun c => c.name = f).map (·.vars)

/-- All functions. -/
def arenaFns (A : Name → Option Nat) : List FnCode → Option (List FnCode)
  | [] => some []
  | c :: cs =>
    match arenaS A c.body, arenaFns A cs with
    | some b, some cs' => some (⟨c.name, c.vars, b⟩ :: cs')
    | _, _ => none

/-- All templates. -/
def arenaTmpls (A : Name → Option Nat) : List TmplCode → Option (List TmplCode)
  | [] => some []
  | c :: cs =>
    match arenaS A c.body, arenaTmpls A cs with
    | some b, some cs' => some (⟨c.sigs, c.vars, b⟩ :: cs')
    | _, _ => none

/-- circuit_design/build.rs:634-674 `build_circuit`, as far as code is concerned: templates first, then functions, sharing the
tables of constants and texts; then the sizes of the arenas. -/
def compile (ts : List Tmpl) (fs : List Fn) : Option Code :=
  match compileTmpls ts [] [] with
  | none => none
  | some (ts', C, T) =>
    match compileFns fs C T with
    | none => none
    | some (fs', C', T') =>
      match arenaFns (arenaOf fs') fs', arenaTmpls (arenaOf fs') ts' with
      | some fs'', some ts'' => some ⟨fs'', ts'', C', T'⟩
      | _, _ => none

/-! ## What the C++ program does -/

/-- `lvar` of the running function or template and the signals of the template. -/
structure Mem (K : Type) where
  lv : Nat → K
  sg : Nat → K

/-- Values of instructions: machine integers, field elements (of which the program has the address of the first one). -/
inductive V (K : Type) where
  | int (z : Int)
  | fld (ks : List K)

/-- Meaning of the compiled functions: cells of the arguments and size of the arena; the result is the size given at the `return` and
the cells copied from. -/
abbrev IFns (K : Type) := Name → List K → Nat → Except Err ((Nat × List K) × List (Ev K))

/-- What running instructions need to know: sizes of `lvar` and of the signals, constants, texts. -/
structure Cfg where
  lvars : Nat
  sigs : Nat
  consts : List Nat
  strings : List String

section
variable {K : Type}

/-- One cell. -/
def Mem.get (m : Mem K) (sig : Bool) (a : Nat) : K := if sig then m.sg a else m.lv a

/-- Number of cells. -/
def Cfg.size (cfg : Cfg) (sig : Bool) : Nat := if sig then cfg.sigs else cfg.lvars

/-- Cells from an address on; outside of the memory there is no meaning. -/
def readN (cfg : Cfg) (m : Mem K) (sig : Bool) (z : Int) (n : Nat) : Option (List K) :=
  if 0 ≤ z ∧ z.toNat + n ≤ cfg.size sig then some ((List.range n).map fun i => m.get sig (z.toNat + i)) else none

/-- Change cells from an address on. -/
def over (f : Nat → K) (a : Nat) (ks : List K) : Nat → K := fun b =>
  if a ≤ b then (match ks[b - a]? with | some k => k | none => f b) else f b

/-- Write cells (`Fr_copy`, `Fr_copyn`). -/
def writeN (cfg : Cfg) (m : Mem K) (sig : Bool) (z : Int) (ks : List K) : Option (Mem K) :=
  if 0 ≤ z ∧ z.toNat + ks.length ≤ cfg.size sig then
    some (if sig then { m with sg := over m.sg z.toNat ks } else { m with lv := over m.lv z.toNat ks })
  else none

/-- compute_bucket.rs:315-341 `get_fr_op`: the operation of the field an operator with two operands stands for. -/
def frInfix : Oper → Option Infix
  | .mul => some .mul
  | .div => some .div
  | .add => some .add
  | .sub => some .sub
  | .pow => some .pow
  | .intDiv => some .intDiv
  | .mod => some .mod
  | .shiftL => some .shiftL
  | .shiftR => some .shiftR
  | .lesserEq => some .lesserEq
  | .greaterEq => some .greaterEq
  | .lesser => some .lesser
  | .greater => some .greater
  | .notEq => some .notEq
  | .boolOr => some .boolOr
  | .boolAnd => some .boolAnd
  | .bitOr => some .bitOr
  | .bitAnd => some .bitAnd
  | .bitXor => some .bitXor
  | _ => none

/-- compute_bucket.rs:315-341 `get_fr_op`, one operand. -/
def frPrefix : Oper → Option Prefix
  | .prefixSub => some .sub
  | .boolNot => some .boolNot
  | .complement => some .complement
  | _ => none

/-- compute_bucket.rs:390-402: the loop that compares further elements while the last result is true; `n` further ones. -/
def eqLoop (S : Sem K) : Nat → K → List K → List K → Option K
  | 0, r, _, _ => some r
  | n + 1, r, as, bs =>
    if S.truthy r then
      match as, bs with
      | a :: as', b :: bs' =>
        match S.inf .eq a b with
        | none => none
        | some r' => eqLoop S n r' as' bs'
      | _, _ => none
    else some r

/-- Operation with two operands (compute_bucket.rs:353-422). -/
def doComp2 (S : Sem K) (o : Oper) (v w : V K) : Option (V K) :=
  match o, v, w with
  | .addAddress, .int x, .int y => some (.int (x + y))
  | .mulAddress, .int x, .int y => some (.int (x * y))
  | .eq n, .fld (a :: as), .fld (b :: bs) =>
    match S.inf .eq a b with
    | none => none
    | some r => (eqLoop S (n - 1) r as bs).map fun k => .fld [k]
  | o, .fld (a :: _), .fld (b :: _) =>
    match frInfix o with
    | none => none
    | some op => (S.inf op a b).map fun k => .fld [k]
  | _, _, _ => none

/-- Operation with one operand. -/
def doComp1 (S : Sem K) (o : Oper) (v : V K) : Option (V K) :=
  match o, v with
  | .toAddress, .fld (a :: _) => (S.toInt a).map .int
  | o, .fld (a :: _) =>
    match frPrefix o with
    | none => none
    | some op => (S.pre op a).map fun k => .fld [k]
  | _, _ => none

/-- The number of elements copied for a size: call_bucket.rs:498-513 (arguments), return_bucket.rs:99-115: one by `Fr_copy` unless
the size is greater. -/
def copied (n : Nat) : Nat := if n > 1 then n else 1

/-- The first `n` cells, if there are so many. -/
def takeN (n : Nat) (ks : List K) : Option (List K) := if n ≤ ks.length then some (ks.take n) else none

/-- Value of an instruction.  The cells of a load are read when it is evaluated; the program keeps the address, but nothing is
written in between.  A chain gives the cells copied into the arena (call_bucket.rs:480-518), where each argument has its place by
the sizes of those before it. -/
def ev (S : Sem K) (cfg : Cfg) (F : IFns K) (m : Mem K) : I → Except Err (V K × List (Ev K))
  | .u32 n => .ok (.int n, [])
  | .big cid =>
    match cfg.consts[cid]? with
    | none => .error .stuck
    | some n => .ok (.fld [S.lit n], [])
  | .load sig loc size =>
    match ev S cfg F m loc with
    | .error e => .error e
    | .ok (.int z, evs) =>
      match readN cfg m sig z size with
      | none => .error .stuck
      | some ks => .ok (.fld ks, evs)
    | .ok _ => .error .stuck
  | .comp1 o a =>
    match ev S cfg F m a with
    | .error e => .error e
    | .ok (v, evs) =>
      match doComp1 S o v with
      | none => .error .stuck
      | some r => .ok (r, evs)
  | .comp2 o a b =>
    match ev S cfg F m a with
    | .error e => .error e
    | .ok (v, evs) =>
      match ev S cfg F m b with
      | .error e => .error e
      | .ok (w, evs') =>
        match doComp2 S o v w with
        | none => .error .stuck
        | some r => .ok (r, evs ++ evs')
  | .call f args arena =>
    match ev S cfg F m args with
    | .error e => .error e
    | .ok (.fld ks, evs) =>
      match F f ks arena with
      | .error e => .error e
      | .ok ((_, rs), evs') =>
        match takeN 1 rs with
        | none => .error .stuck
        | some r => .ok (.fld r, evs ++ evs')
    | .ok _ => .error .stuck
  | .nil => .ok (.fld [], [])
  | .cons size a rest =>
    match ev S cfg F m a with
    | .error e => .error e
    | .ok (.fld ks, evs) =>
      if size = 0 then .error .stuck
      else
        match takeN (copied size) ks with
        | none => .error .stuck
        | some ks' =>
          match ev S cfg F m rest with
          | .error e => .error e
          | .ok (.fld rs, evs') => .ok (.fld (ks' ++ rs), evs ++ evs')
          | .ok _ => .error .stuck
    | .ok _ => .error .stuck

/-- Value of an instruction as a field element. -/
def evK (S : Sem K) (cfg : Cfg) (F : IFns K) (m : Mem K) (i : I) : Except Err (K × List (Ev K)) :=
  match ev S cfg F m i with
  | .error e => .error e
  | .ok (.fld (k :: _), evs) => .ok (k, evs)
  | .ok _ => .error .stuck

/-- log_bucket.rs:105-162. -/
def evLog (S : Sem K) (cfg : Cfg) (F : IFns K) (m : Mem K) : List LogI → Except Err (List (Ev K))
  | [] => .ok [.endl]
  | .str k :: r =>
    match cfg.strings[k]? with
    | none => .error .stuck
    | some s =>
      match evLog S cfg F m r with
      | .error e => .error e
      | .ok evs => .ok (.str s :: evs)
  | .exp i :: r =>
    match evK S cfg F m i with
    | .error e => .error e
    | .ok (k, evs) =>
      match evLog S cfg F m r with
      | .error e => .error e
      | .ok evs' => .ok (evs ++ .val k :: evs')

/-- Execution of instructions.  Stores: store_bucket.rs:442-852; the number of elements is the smaller size, and one if that is
zero.  Calls: call_bucket.rs:466-888, the callee copies `min` of the sizes, or one element (return_bucket.rs:99-115).  Branches and
loops: branch_bucket.rs:100-123, loop_bucket.rs:76-92.  Assertions: assert_bucket.rs:70-89; equalities are checked if `chk`. -/
def run (S : Sem K) (chk : Bool) (cfg : Cfg) (F : IFns K) (n : Nat) : IS → Mem K → Step (Mem K) (Nat × List K) K
  | .store sig loc src d s, m =>
    match ev S cfg F m loc with
    | .error e => .error e
    | .ok (.int z, evs) =>
      match ev S cfg F m src with
      | .error e => .error e
      | .ok (.fld ks, evs') =>
        match takeN (copied (min d s)) ks with
        | none => .error .stuck
        | some ks' =>
          match writeN cfg m sig z ks' with
          | none => .error .stuck
          | some m' => .ok (m', evs ++ evs', none)
      | .ok _ => .error .stuck
    | .ok _ => .error .stuck
  | .callTo sig loc d f args arena, m =>
    match ev S cfg F m args with
    | .error e => .error e
    | .ok (.fld ks, evs) =>
      match ev S cfg F m loc with
      | .error e => .error e
      | .ok (.int z, evs') =>
        match F f ks arena with
        | .error e => .error e
        | .ok ((w, rs), evs'') =>
          match takeN (if w > 1 then min w d else 1) rs with
          | none => .error .stuck
          | some rs' =>
            match writeN cfg m sig z rs' with
            | none => .error .stuck
            | some m' => .ok (m', evs ++ evs' ++ evs'', none)
      | .ok _ => .error .stuck
    | .ok _ => .error .stuck
  | .branch c a b, m =>
    match evK S cfg F m c with
    | .error e => .error e
    | .ok (k, evs) =>
      match (if S.truthy k then run S chk cfg F n a m else run S chk cfg F n b m) with
      | .error e => .error e
      | .ok (m', evs', r) => .ok (m', evs ++ evs', r)
  | .loop c s, m =>
    iter (fun m =>
        match evK S cfg F m c with
        | .error e => .error e
        | .ok (k, evs) => .ok (S.truthy k, evs))
      (run S chk cfg F n s) n m
  | .ret size e, m =>
    match ev S cfg F m e with
    | .error e => .error e
    | .ok (.fld ks, evs) =>
      match takeN (copied size) ks with
      | none => .error .stuck
      | some ks' => .ok (m, evs, some (size, ks'))
    | .ok _ => .error .stuck
  | .assert q e, m =>
    if q && !chk then .ok (m, [], none)
    else
      match evK S cfg F m e with
      | .error e => .error e
      | .ok (k, evs) => if S.truthy k then .ok (m, evs, none) else .error .fail
  | .log args, m =>
    match evLog S cfg F m args with
    | .error e => .error e
    | .ok evs => .ok (m, evs, none)
  | .nil, m => .ok (m, [], none)
  | .cons s ss, m =>
    match run S chk cfg F n s m with
    | .error e => .error e
    | .ok (m', evs, some r) => .ok (m', evs, some r)
    | .ok (m', evs, none) =>
      match run S chk cfg F n ss m' with
      | .error e => .error e
      | .ok (m'', evs', r) => .ok (m'', evs ++ evs', r)

/-- Calls of compiled functions (circuit_design/function.rs:92-124, call_bucket.rs:466-534): `lvar` is the arena of the caller, which
starts with the arguments; the rest is what was in memory (`junk`).  Arguments beyond the arena have no meaning. -/
def icall (S : Sem K) (chk : Bool) (c : Code) (junk : Nat → K) : Nat → IFns K
  | 0 => fun _ _ _ => .error .more
  | n + 1 => fun f args arena =>
    match c.fns.find? fun g => g.name = f with
    | none => .error .stuck
    | some g =>
      if args.length ≤ arena then
        match run S chk ⟨arena, 0, c.consts, c.strings⟩ (icall S chk c junk n) n g.body ⟨over junk 0 args, junk⟩ with
        | .error e => .error e
        | .ok (_, evs, some r) => .ok (r, evs)
        | .ok (_, _, none) => .error .stuck
      else .error .stuck

/-- The run function of a template: `lvar` has the number of variables of the template (circuit_design/template.rs). -/
def runTmpl (S : Sem K) (chk : Bool) (c : Code) (junk : Nat → K) (n : Nat) (t : TmplCode) (sg : Nat → K) :
    Step (Mem K) (Nat × List K) K :=
  run S chk ⟨t.vars, t.sigs, c.consts, c.strings⟩ (icall S chk c junk n) n t.body ⟨junk, sg⟩

/-- The value of a parameter of a template: the elements in order of their positions. -/
def constVal (S : Sem K) (d : List Nat) (vs : List Nat) : Val K :=
  ⟨d, fun q => (((positions d).zip vs).find? fun e => e.1 = q).map fun e => S.lit e.2⟩

/-- The scope of signals and parameters a template starts with: `vals` has the values of the signals that are known. -/
def tmplFrame (S : Sem K) (p : Tmpl) (vals : Name → List Nat → Option K) : List (Name × Ent K) :=
  (p.consts.map fun (x, d, vs) => (x, (⟨false, constVal S d vs⟩ : Ent K))).reverse
    ++ (p.signals.map fun (x, d) => (x, (⟨true, ⟨d, vals x⟩⟩ : Ent K))).reverse

/-- The elements of all signals in order of declaration: name and position. -/
def sigCells (p : Tmpl) : List (Name × List Nat) := p.signals.flatMap fun (x, d) => (positions d).map fun q => (x, q)

/-- Reference meaning of a template. -/
def execTmpl (S : Sem K) (chk : Bool) (P : List Fn) (n : Nat) (p : Tmpl) (vals : Name → List Nat → Option K) :
    Step (Frames K) (Val K) K :=
  exec S p.tag chk (callN S chk P n) n p.body [tmplFrame S p vals]

end

end Verif.Ir
