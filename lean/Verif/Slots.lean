import Mathlib.Data.List.Basic

/-!
Model of the numbering of temporaries, `compiler/src/ir_processing/build_stack.rs`, together with the
part of the C++ generators (`compiler/src/intermediate_representation/*_bucket.rs`, `produce_c`) that
decides in which order temporaries are written and read.

The field, the memory of signals and variables and the called functions are parameters (`Sem`). A load
reads whatever the memory gives for its list of indices: first the index of the component, if any, then
those of the location (`LocationRule::Indexed`: one, `Mapped`: several). A value may stand for a whole
array, of which the address is passed on.

For the prime goldilocks no temporaries are used (compute_bucket.rs:424-467 builds nested calls).
-/

namespace Verif.Slots

variable (V O K F : Type)

mutual

/-- Instructions with a value: `ValueBucket`, `ComputeBucket` with an operation of the field,
`LoadBucket`. `aux` is `op_aux_no`. -/
inductive E where
  | val (aux : Nat) (c : V)
  | comp (aux : Nat) (op : O) (args : List E)
  | load (k : K) (idx : List A)

/-- Addresses: `ValueBucket` parsed as `U32` and `ComputeBucket` with `AddAddress`, `MulAddress`
(`mul = true`) or `ToAddress`. -/
inductive A where
  | num (n : Nat)
  | arith (mul : Bool) (l r : A)
  | toAddr (e : E)

end

/-- `StoreBucket`: `cmp` is the component index of `dest_address_type`, `srcTy` is `src_address_type`,
`dsize` and `ssize` are the sizes as functions of the index of the component (constant for
`SizeOption::Single`), `notify` holds for outputs in parallel templates. -/
structure Store where
  cmp : Option (A V O K)
  srcTy : Option (A V O K)
  dest : List (A V O K)
  src : E V O K
  kind : K
  dsize : Nat → Nat
  ssize : Nat → Nat
  notify : Bool

/-- `CallBucket` with `ReturnType::Final`. -/
structure Call where
  fn : F
  args : List (E V O K)
  cmp : Option (A V O K)
  dest : List (A V O K)
  kind : K
  size : Nat → Nat
  notify : Bool

/-- Instructions: `StoreBucket`, `CallBucket`, `BranchBucket`, `LoopBucket`, `ReturnBucket`,
`AssertBucket`, `LogBucket`, `CreateCmpBucket`. -/
inductive Stmt where
  | store (s : Store V O K)
  | call (c : Call V O K F)
  | branch (c : E V O K) (t e : List Stmt)
  | loop (c : E V O K) (body : List Stmt)
  | ret (e : E V O K)
  | check (e : E V O K)
  | log (es : List (E V O K))
  | create (e : E V O K)

variable {V O K F}

mutual

/-- build_stack.rs:60-71, `build_instruction_compute`, with 74-92 `build_compute`, 96-100 `build_load`
and 141-144 `build_value`: the numbered instruction, the depth, the next free number. The other entry to
these functions, `build_instruction` (12-27), returns the same depth. -/
def opnd : E V O K → Nat → E V O K × Nat × Nat
  | .val _ c, fresh => (.val fresh c, fresh + 1, fresh + 1)
  | .comp _ op args, fresh =>
    let (args', m, _) := opnds args (fresh + 1) (fresh + 1)
    (.comp fresh op args', m, fresh + 1)
  | .load k idx, fresh =>
    let (idx', m, f) := addrs idx fresh fresh
    (.load k idx', m, f)

/-- build_stack.rs:86-90, the loop over the operands. -/
def opnds : List (E V O K) → Nat → Nat → List (E V O K) × Nat × Nat
  | [], fresh, m => ([], m, fresh)
  | e :: es, fresh, m =>
    let (e', d, f) := opnd e fresh
    let (es', m', f') := opnds es f (max m d)
    (e' :: es', m', f')

/-- build_stack.rs:184-221, `build_instruction_address` and `build_compute_address`. -/
def addr : A V O K → Nat → A V O K × Nat × Nat
  | .num n, fresh => (.num n, 0, fresh)
  | .arith mul l r, fresh =>
    let (l', d1, f1) := addr l fresh
    let (r', d2, f2) := addr r f1
    (.arith mul l' r', max (max fresh d1) d2, f2)
  | .toAddr e, fresh =>
    let (e', d, f) := opnd e fresh
    (.toAddr e', max fresh d, f)

/-- build_stack.rs:146-181, `build_address_type` and `build_location` one after the other. The two
maxima of the original start with the next free number at their beginning, which is no more than the
depth so far. -/
def addrs : List (A V O K) → Nat → Nat → List (A V O K) × Nat × Nat
  | [], fresh, m => ([], m, fresh)
  | a :: as, fresh, m =>
    let (a', d, f) := addr a fresh
    let (as', m', f') := addrs as f (max m d)
    (a' :: as', m', f')

end

/-- build_stack.rs:172-181, `build_address_type` alone. -/
def addrOpt : Option (A V O K) → Nat → Option (A V O K) × Nat
  | none, fresh => (none, fresh)
  | some a, fresh =>
    let (a', d, _) := addr a fresh
    (some a', max fresh d)

/-- build_stack.rs:134-139, `build_store`. The source address is not visited. -/
def buildStore (s : Store V O K) (fresh : Nat) : Store V O K × Nat :=
  let (src, f0, _) := opnd s.src fresh
  let (dest, f1, _) := addrs s.dest fresh fresh
  let (cmp, f2) := addrOpt s.cmp fresh
  ({ s with src := src, dest := dest, cmp := cmp }, max (max f0 f1) f2)

/-- build_stack.rs:51-55, the loop over the arguments of a call. -/
def buildArgs : List (E V O K) → Nat → Nat → List (E V O K) × Nat
  | [], _, m => ([], m)
  | e :: es, fresh, m =>
    let (e', d, _) := opnd e (fresh + 1)
    let (es', m') := buildArgs es (fresh + 1) (max m d)
    (e' :: es', m')

/-- build_stack.rs:36-57, `build_call`, for calls whose result is stored. -/
def buildCall (c : Call V O K F) (fresh : Nat) : Call V O K F × Nat :=
  let (cmp, v0) := addrOpt c.cmp fresh
  let (dest, v1, _) := addrs c.dest fresh fresh
  let (args, m) := buildArgs c.args fresh (max v0 v1)
  ({ c with cmp := cmp, dest := dest, args := args }, m)

/-- build_stack.rs:115-128, `build_log`: the expressions. -/
def buildLog : List (E V O K) → Nat → Nat → List (E V O K) × Nat
  | [], _, m => ([], m)
  | e :: es, fresh, m =>
    let (e', d, _) := opnd e fresh
    let (es', m') := buildLog es fresh (max m d)
    (e' :: es', m')

mutual

/-- build_stack.rs:12-34, 102-132. -/
def buildStmt : Stmt V O K F → Nat → Stmt V O K F × Nat
  | .store s, fresh => let (s', d) := buildStore s fresh; (.store s', d)
  | .call c, fresh => let (c', d) := buildCall c fresh; (.call c', d)
  | .branch c t e, fresh =>
    let (c', d0, _) := opnd c fresh
    let (t', d1) := buildList t fresh 0
    let (e', d2) := buildList e fresh 0
    (.branch c' t' e', max d0 (max d1 d2))
  | .loop c b, fresh =>
    let (c', d0, _) := opnd c fresh
    let (b', d1) := buildList b fresh 0
    (.loop c' b', max d0 d1)
  | .ret e, fresh => let (e', d, _) := opnd e fresh; (.ret e', d)
  | .check e, fresh => let (e', d, _) := opnd e fresh; (.check e', d)
  | .log es, fresh => let (es', d) := buildLog es fresh 0; (.log es', d)
  | .create e, fresh => let (e', d, _) := opnd e fresh; (.create e', d)

/-- build_stack.rs:3-10, `build_list`. -/
def buildList : List (Stmt V O K F) → Nat → Nat → List (Stmt V O K F) × Nat
  | [], _, m => ([], m)
  | s :: ss, fresh, m =>
    let (s', d) := buildStmt s fresh
    let (ss', m') := buildList ss fresh (max m d)
    (s' :: ss', m')

end

/-! Generated code -/

variable (V O K) in
mutual

/-- An operand as text of the program, evaluated where it stands: a constant (value_bucket.rs:76-92),
`&expaux[n]`, or a place in memory (load_bucket.rs:248-424). -/
inductive Opnd where
  | const (c : V)
  | slot (n : Nat)
  | read (k : K) (idx : List AOpnd)

/-- The text of an address (compute_bucket.rs:352-362). -/
inductive AOpnd where
  | num (n : Nat)
  | arith (mul : Bool) (l r : AOpnd)
  | toInt (o : Opnd)

end

variable (V O K) in
/-- `Fr_op(&expaux[n], operands)`, compute_bucket.rs:412-420. -/
structure Instr where
  slot : Nat
  op : O
  args : List (Opnd V K)

mutual

/-- compute_bucket.rs:344-420, value_bucket.rs:76-92, load_bucket.rs:248-424 (without the waiting for
outputs of parallel components, which reads the operand but changes no temporary). -/
def prodE : E V O K → List (Instr V O K) × Opnd V K
  | .val _ c => ([], .const c)
  | .comp aux op args =>
    let (code, os) := prodEs args
    (code ++ [⟨aux, op, os⟩], .slot aux)
  | .load k idx =>
    let (code, os) := prodAs idx
    (code, .read k os)

/-- compute_bucket.rs:348-352. -/
def prodEs : List (E V O K) → List (Instr V O K) × List (Opnd V K)
  | [] => ([], [])
  | e :: es =>
    let (c, o) := prodE e
    let (cs, os) := prodEs es
    (c ++ cs, o :: os)

/-- compute_bucket.rs:355-363. -/
def prodA : A V O K → List (Instr V O K) × AOpnd V K
  | .num n => ([], .num n)
  | .arith mul l r =>
    let (c, o) := prodA l
    let (c', o') := prodA r
    (c ++ c', .arith mul o o')
  | .toAddr e =>
    let (c, o) := prodE e
    (c, .toInt o)

def prodAs : List (A V O K) → List (Instr V O K) × List (AOpnd V K)
  | [] => ([], [])
  | a :: as =>
    let (c, o) := prodA a
    let (cs, os) := prodAs as
    (c ++ cs, o :: os)

end

/-! Meaning -/

/-- Operations of the field, conversion to an index, truth, reading the memory. -/
structure Sem (V O K F M : Type) where
  op : O → List V → V
  toInt : V → Nat
  isTrue : V → Bool
  read : M → K → List Nat → V
  /-- memory, kind of destination, component, indices, value, size -/
  write : M → K → Nat → List Nat → V → Nat → M
  /-- an output has been set -/
  notify : M → List Nat → Nat → M
  /-- memory, function, arguments, kind of destination, component, indices, size -/
  call : M → F → List V → K → Nat → List Nat → Nat → M
  print : M → V → M
  create : M → V → M

variable {M : Type} (S : Sem V O K F M)

/-- The machine operation of an address. -/
def arithN (mul : Bool) (a b : Nat) : Nat := if mul then a * b else a + b

mutual

/-- The value of an instruction, by its structure. -/
def evalE (m : M) : E V O K → V
  | .val _ c => c
  | .comp _ op args => S.op op (evalEs m args)
  | .load k idx => S.read m k (evalAs m idx)

def evalEs (m : M) : List (E V O K) → List V
  | [] => []
  | e :: es => evalE m e :: evalEs m es

def evalA (m : M) : A V O K → Nat
  | .num n => n
  | .arith mul l r => arithN mul (evalA m l) (evalA m r)
  | .toAddr e => S.toInt (evalE m e)

def evalAs (m : M) : List (A V O K) → List Nat
  | [] => []
  | a :: as => evalA m a :: evalAs m as

end

mutual

/-- The value of an operand, with the temporaries `σ`, of which there are `n`; `none` if a temporary
beyond these is read. -/
def evO (n : Nat) (m : M) (σ : Nat → V) : Opnd V K → Option V
  | .const c => some c
  | .slot i => if i < n then some (σ i) else none
  | .read k idx => (evAOs n m σ idx).map (S.read m k)

def evAO (n : Nat) (m : M) (σ : Nat → V) : AOpnd V K → Option Nat
  | .num x => some x
  | .arith mul l r =>
    match evAO n m σ l, evAO n m σ r with
    | some a, some b => some (arithN mul a b)
    | _, _ => none
  | .toInt o => (evO n m σ o).map S.toInt

def evAOs (n : Nat) (m : M) (σ : Nat → V) : List (AOpnd V K) → Option (List Nat)
  | [] => some []
  | a :: as =>
    match evAO n m σ a, evAOs n m σ as with
    | some x, some xs => some (x :: xs)
    | _, _ => none

end

def evOs (n : Nat) (m : M) (σ : Nat → V) : List (Opnd V K) → Option (List V)
  | [] => some []
  | a :: as =>
    match evO S n m σ a, evOs n m σ as with
    | some x, some xs => some (x :: xs)
    | _, _ => none

/-- Writing a temporary. -/
def upd (σ : Nat → V) (i : Nat) (v : V) : Nat → V := fun j => if j = i then v else σ j

/-- Execution of straight-line code. -/
def runCode (n : Nat) (m : M) : List (Instr V O K) → (Nat → V) → Option (Nat → V)
  | [], σ => some σ
  | i :: is, σ =>
    match evOs S n m σ i.args with
    | none => none
    | some vs => if i.slot < n then runCode n m is (upd σ i.slot (S.op i.op vs)) else none

/-- How a piece of a program ends. -/
inductive Out (X V : Type) where
  | normal (x : X)
  | returned (x : X) (v : V)
  | failed (x : X)
  | fuel
  | bounds
  deriving DecidableEq

/-- Code for an instruction, then its operand. -/
def runE (n : Nat) (m : M) (e : E V O K) (σ : Nat → V) : Option (V × (Nat → V)) :=
  match runCode S n m (prodE e).1 σ with
  | none => none
  | some σ' => (evO S n m σ' (prodE e).2).map fun v => (v, σ')

/-- The component index: `uint cmp_index_ref = ...` (store_bucket.rs:452-456). -/
def runCmp (n : Nat) (m : M) (c : Option (A V O K)) (σ : Nat → V) : Option (Nat × (Nat → V)) :=
  match c with
  | none => some (0, σ)
  | some a =>
    match runCode S n m (prodA a).1 σ with
    | none => none
    | some σ' => (evAO S n m σ' (prodA a).2).map fun v => (v, σ')

/-- Code for addresses, then the addresses. -/
def runAs (n : Nat) (m : M) (as : List (A V O K)) (σ : Nat → V) : Option (List Nat × (Nat → V)) :=
  match runCode S n m (prodAs as).1 σ with
  | none => none
  | some σ' => (evAOs S n m σ' (prodAs as).2).map fun v => (v, σ')

/-- The code of `src_address_type` (store_bucket.rs:457-461); its text is kept. -/
def runSrcTy (n : Nat) (m : M) (c : Option (A V O K)) (σ : Nat → V) : Option (Nat → V) :=
  match c with
  | none => some σ
  | some a => runCode S n m (prodA a).1 σ

/-- The text of `src_address_type`, evaluated at the copy (store_bucket.rs:475-484, 577-589). -/
def evSrcTy (n : Nat) (m : M) (σ : Nat → V) (c : Option (A V O K)) : Option Nat :=
  match c with
  | none => some 0
  | some a => evAO S n m σ (prodA a).2

/-- store_bucket.rs:604-613, 622-629: the text of the destination is evaluated again after the copy. -/
def runNotify (n : Nat) (m : M) (σ : Nat → V) (dest : List (A V O K)) (size : Nat) : Bool → Option M
  | false => some m
  | true => (evAOs S n m σ (prodAs dest).2).map fun d => S.notify m d size

/-- store_bucket.rs:443-640, `produce_c`: the component index is kept in a variable; then come the code
for the source address and for the destination, whose address is kept in `aux_dest`; then the code for
the source and the copy. (For `Mapped` destinations each index is kept in `map_index_aux` after its
code; evaluating them all at the end of the code gives the same.) -/
def runStore (n : Nat) (m : M) (s : Store V O K) (σ : Nat → V) : Option (M × (Nat → V)) :=
  match runCmp S n m s.cmp σ with
  | none => none
  | some (c, σ1) =>
    match runSrcTy S n m s.srcTy σ1 with
    | none => none
    | some σ2 =>
      match runAs S n m s.dest σ2 with
      | none => none
      | some (d, σ3) =>
        match runE S n m s.src σ3 with
        | none => none
        | some (v, σ4) =>
          match evSrcTy S n m σ4 s.srcTy with
          | none => none
          | some t =>
            (runNotify S n (S.write m s.kind c d v (min (s.dsize c) (s.ssize t))) σ4 s.dest
              (min (s.dsize c) (s.ssize t)) s.notify).map fun m' => (m', σ4)

/-- call_bucket.rs:482-515: each argument is copied right after its code. -/
def runArgs (n : Nat) (m : M) : List (E V O K) → (Nat → V) → Option (List V × (Nat → V))
  | [], σ => some ([], σ)
  | e :: es, σ =>
    match runE S n m e σ with
    | none => none
    | some (v, σ1) => (runArgs n m es σ1).map fun (vs, σ2) => (v :: vs, σ2)

/-- call_bucket.rs:467-680, with the result stored. The called function has temporaries of its own. -/
def runCall (n : Nat) (m : M) (c : Call V O K F) (σ : Nat → V) : Option (M × (Nat → V)) :=
  match runArgs S n m c.args σ with
  | none => none
  | some (vs, σ1) =>
    match runCmp S n m c.cmp σ1 with
    | none => none
    | some (x, σ2) =>
      match runAs S n m c.dest σ2 with
      | none => none
      | some (d, σ3) =>
        (runNotify S n (S.call m c.fn vs c.kind x d (c.size x)) σ3 c.dest (c.size x) c.notify).map
          fun m' => (m', σ3)

/-- log_bucket.rs:106-165. -/
def runLog (n : Nat) : List (E V O K) → M → (Nat → V) → Option (M × (Nat → V))
  | [], m, σ => some (m, σ)
  | e :: es, m, σ =>
    match runE S n m e σ with
    | none => none
    | some (v, σ1) => runLog n es (S.print m v) σ1

def ofOpt {X : Type} : Option X → Out X V
  | none => .bounds
  | some x => .normal x

mutual

/-- The generated program, with `n` temporaries: branch_bucket.rs:101-122, loop_bucket.rs:77-92,
return_bucket.rs:97-118, assert_bucket.rs:71-88. The first argument bounds the depth. -/
def execS (n : Nat) : Nat → Stmt V O K F → M → (Nat → V) → Out (M × (Nat → V)) V
  | 0, _, _, _ => .fuel
  | fuel + 1, st, m, σ =>
    match st with
    | .store s => ofOpt (runStore S n m s σ)
    | .call c => ofOpt (runCall S n m c σ)
    | .branch c t e =>
      match runE S n m c σ with
      | none => .bounds
      | some (v, σ1) => if S.isTrue v then execL n fuel t m σ1 else execL n fuel e m σ1
    | .loop c b =>
      match runE S n m c σ with
      | none => .bounds
      | some (v, σ1) =>
        if S.isTrue v then
          match execL n fuel b m σ1 with
          | .normal (m', σ2) => execS n fuel (.loop c b) m' σ2
          | r => r
        else .normal (m, σ1)
    | .ret e =>
      match runE S n m e σ with
      | none => .bounds
      | some (v, σ1) => .returned (m, σ1) v
    | .check e =>
      match runE S n m e σ with
      | none => .bounds
      | some (v, σ1) => if S.isTrue v then .normal (m, σ1) else .failed (m, σ1)
    | .log es => ofOpt (runLog S n es m σ)
    | .create e =>
      match runE S n m e σ with
      | none => .bounds
      | some (v, σ1) => .normal (S.create m v, σ1)

def execL (n : Nat) : Nat → List (Stmt V O K F) → M → (Nat → V) → Out (M × (Nat → V)) V
  | 0, _, _, _ => .fuel
  | _ + 1, [], m, σ => .normal (m, σ)
  | fuel + 1, s :: ss, m, σ =>
    match execS n fuel s m σ with
    | .normal (m', σ') => execL n fuel ss m' σ'
    | r => r

end

/-! The meaning of programs without temporaries -/

def cmpIdx (m : M) : Option (A V O K) → Nat
  | none => 0
  | some a => evalA S m a

def dirStore (m : M) (s : Store V O K) : M :=
  let c := cmpIdx S m s.cmp
  let size := min (s.dsize c) (s.ssize (cmpIdx S m s.srcTy))
  let m' := S.write m s.kind c (evalAs S m s.dest) (evalE S m s.src) size
  if s.notify then S.notify m' (evalAs S m s.dest) size else m'

def dirCall (m : M) (c : Call V O K F) : M :=
  let x := cmpIdx S m c.cmp
  let m' := S.call m c.fn (evalEs S m c.args) c.kind x (evalAs S m c.dest) (c.size x)
  if c.notify then S.notify m' (evalAs S m c.dest) (c.size x) else m'

def dirLog : List (E V O K) → M → M
  | [], m => m
  | e :: es, m => dirLog es (S.print m (evalE S m e))

mutual

def dirS : Nat → Stmt V O K F → M → Out M V
  | 0, _, _ => .fuel
  | fuel + 1, st, m =>
    match st with
    | .store s => .normal (dirStore S m s)
    | .call c => .normal (dirCall S m c)
    | .branch c t e => if S.isTrue (evalE S m c) then dirL fuel t m else dirL fuel e m
    | .loop c b =>
      if S.isTrue (evalE S m c) then
        match dirL fuel b m with
        | .normal m' => dirS fuel (.loop c b) m'
        | r => r
      else .normal m
    | .ret e => .returned m (evalE S m e)
    | .check e => if S.isTrue (evalE S m e) then .normal m else .failed m
    | .log es => .normal (dirLog S es m)
    | .create e => .normal (S.create m (evalE S m e))

def dirL : Nat → List (Stmt V O K F) → M → Out M V
  | 0, _, _ => .fuel
  | _ + 1, [], m => .normal m
  | fuel + 1, s :: ss, m =>
    match dirS fuel s m with
    | .normal m' => dirL fuel ss m'
    | r => r

end

end Verif.Slots
