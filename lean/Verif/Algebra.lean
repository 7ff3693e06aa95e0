import Verif.CMap

/-!
# Model of `circom_algebra/src/algebra.rs`

Generic in the signal type `K` (`String` during generation, `usize` afterwards).  `default : K` is the constant key
(`C::default()`).  `unwrap`/`assert`/`expect` become `.error .panic`.  `debug_assert`s are not modelled (they are
absent from release builds); the invariant they check is `AExpr.Valid` below.
-/

namespace Verif.Algebra
open Verif.ModArith (Res Fail)

variable {K : Type} [DecidableEq K] [Inhabited K]

/-- algebra.rs:9-33. -/
inductive AExpr (K : Type) where
  | number (value : Int)
  | signal (symbol : K)
  | linear (coefficients : CMap K)
  | quadratic (a b c : CMap K)
  | nonQuadratic
  deriving DecidableEq, Repr

/-- algebra.rs:1002-1010. -/
structure Constraint (K : Type) where
  a : CMap K
  b : CMap K
  c : CMap K
  deriving DecidableEq, Repr

/-- algebra.rs:819-826. -/
structure Substitution (K : Type) where
  frm : K
  rhs : CMap K
  deriving DecidableEq, Repr

/-- algebra.rs:156-161 `initialize_hashmap_for_expression`. -/
def initConst (m : CMap K) : CMap K := if m.contains default then m else m.insert default 0

/-- algebra.rs:166-172 `initialize_symbol_in_coefficients`. -/
def initSymbol (k : K) (m : CMap K) : CMap K := if m.contains k then m else m.insert k 0

/-- algebra.rs:173-185; the `unwrap` at 182 aborts when the constant key is missing. -/
def addConst (value : Int) (m : CMap K) (field : Int) : Res (CMap K) :=
  match m.get default with
  | none => .error .panic
  | some v => .ok (m.insert default (ModArith.add v value field))

/-- algebra.rs:186-199.  The `unwrap` at 196 cannot fail after `initSymbol`; `getD 0` is that value. -/
def addSymbol (symbol : K) (coefficient : Int) (m : CMap K) (field : Int) : CMap K :=
  let m := initSymbol symbol m
  m.insert symbol (ModArith.add ((m.get symbol).getD 0) coefficient field)

/-- algebra.rs:200-217. -/
def addCoefs (m0 m1 : CMap K) (field : Int) : CMap K :=
  m0.foldl (fun acc e => addSymbol e.1 e.2 acc field) m1

/-- algebra.rs:218-228. -/
def mulCoefs (constant : Int) (m : CMap K) (field : Int) : CMap K :=
  m.map fun e => (e.1, ModArith.mul e.2 constant field)

/-- algebra.rs:229-243. -/
def divCoefs (constant : Int) (m : CMap K) (field : Int) : Res (CMap K) :=
  match ModArith.div 1 constant field with
  | .error e => .error e
  | .ok inv => .ok (mulCoefs inv m field)

/-- Map with only the initialised constant key (algebra.rs:256-257 and the other uses). -/
def zeroMap : CMap K := initConst []

/-- algebra.rs:245-341 `ArithmeticExpression::add`. -/
def add (left right : AExpr K) (field : Int) : Res (AExpr K) :=
  match left, right with
  | .nonQuadratic, _ => .ok .nonQuadratic
  | _, .nonQuadratic => .ok .nonQuadratic
  | .quadratic .., .quadratic .. => .ok .nonQuadratic
  | .number v0, .number v1 => .ok (.number (ModArith.add v0 v1 field))
  | .number v, .signal s => do
    let m ← addConst v zeroMap field
    .ok (.linear (addSymbol s 1 m field))
  | .signal s, .number v => do
    let m ← addConst v zeroMap field
    .ok (.linear (addSymbol s 1 m field))
  | .number v, .linear m => do .ok (.linear (← addConst v m field))
  | .linear m, .number v => do .ok (.linear (← addConst v m field))
  | .number v, .quadratic a b c => do .ok (.quadratic a b (← addConst v c field))
  | .quadratic a b c, .number v => do .ok (.quadratic a b (← addConst v c field))
  | .signal s0, .signal s1 => .ok (.linear (addSymbol s1 1 (addSymbol s0 1 zeroMap field) field))
  | .signal s, .linear m => .ok (.linear (addSymbol s 1 m field))
  | .linear m, .signal s => .ok (.linear (addSymbol s 1 m field))
  | .signal s, .quadratic a b c => .ok (.quadratic a b (addSymbol s 1 c field))
  | .quadratic a b c, .signal s => .ok (.quadratic a b (addSymbol s 1 c field))
  | .linear m0, .linear m1 => .ok (.linear (addCoefs m0 m1 field))
  | .linear m, .quadratic a b c => .ok (.quadratic a b (addCoefs m c field))
  | .quadratic a b c, .linear m => .ok (.quadratic a b (addCoefs m c field))

/-- algebra.rs:343-430 `ArithmeticExpression::mul`. -/
def mul (left right : AExpr K) (field : Int) : AExpr K :=
  match left, right with
  | .nonQuadratic, _ => .nonQuadratic
  | _, .nonQuadratic => .nonQuadratic
  | .quadratic .., .quadratic .. => .nonQuadratic
  | .quadratic .., .linear _ => .nonQuadratic
  | .linear _, .quadratic .. => .nonQuadratic
  | .quadratic .., .signal _ => .nonQuadratic
  | .signal _, .quadratic .. => .nonQuadratic
  | .number v0, .number v1 => .number (ModArith.mul v0 v1 field)
  | .number v, .signal s => .linear (addSymbol s v zeroMap field)
  | .signal s, .number v => .linear (addSymbol s v zeroMap field)
  | .number v, .linear m => .linear (mulCoefs v m field)
  | .linear m, .number v => .linear (mulCoefs v m field)
  | .number v, .quadratic a b c => .quadratic (mulCoefs v a field) b (mulCoefs v c field)
  | .quadratic a b c, .number v => .quadratic (mulCoefs v a field) b (mulCoefs v c field)
  | .signal s0, .signal s1 => .quadratic (addSymbol s0 1 zeroMap field) (addSymbol s1 1 zeroMap field) zeroMap
  | .signal s, .linear m => .quadratic m (addSymbol s 1 zeroMap field) zeroMap
  | .linear m, .signal s => .quadratic m (addSymbol s 1 zeroMap field) zeroMap
  | .linear m0, .linear m1 => .quadratic m0 m1 zeroMap

/-- algebra.rs:431-440 `ArithmeticExpression::sub`. -/
def sub (left right : AExpr K) (field : Int) : Res (AExpr K) :=
  add left (mul (.number (-1)) right field) field

/-- algebra.rs:442-490 `ArithmeticExpression::div`. -/
def div (left right : AExpr K) (field : Int) : Res (AExpr K) :=
  match left, right with
  | .number v0, .number v1 => do .ok (.number (← ModArith.div v0 v1 field))
  | .signal s, .number v => do .ok (.linear (← divCoefs v (addSymbol s 1 zeroMap field) field))
  | .linear m, .number v => do .ok (.linear (← divCoefs v m field))
  | .quadratic a b c, .number v => do
    let a ← divCoefs v a field
    let c ← divCoefs v c field
    .ok (.quadratic a b c)
  | _, _ => .ok .nonQuadratic

/-- Common shape of the operators that fold numbers only and may fail: algebra.rs:491-504 `idiv`, 505-525 `mod_op`,
568-593 `shift_l`, `shift_r`. -/
def numOpR (f : Int → Int → Int → Res Int) (left right : AExpr K) (field : Int) : Res (AExpr K) :=
  match left, right with
  | .number v0, .number v1 => do .ok (.number (← f v0 v1 field))
  | _, _ => .ok .nonQuadratic

/-- Common shape of the total number-only operators: algebra.rs:594-632 (bitwise), 653-757 (boolean, comparison). -/
def numOp (f : Int → Int → Int → Int) (left right : AExpr K) (field : Int) : AExpr K :=
  match left, right with
  | .number v0, .number v1 => .number (f v0 v1 field)
  | _, _ => .nonQuadratic

/-- Common shape of `complement` (algebra.rs:557-567) and `not` (643-651). -/
def numOp1 (f : Int → Int → Int) (e : AExpr K) (field : Int) : AExpr K :=
  match e with
  | .number v => .number (f v field)
  | _ => .nonQuadratic

/-- algebra.rs:526-549 `ArithmeticExpression::pow`. -/
def pow (left right : AExpr K) (field : Int) : Res (AExpr K) :=
  match left, right with
  | .number v0, .number v1 => do .ok (.number (← ModArith.pow v0 v1 field))
  | .signal s, .number v => if v = 2 then .ok (mul (.signal s) (.signal s) field) else .ok .nonQuadratic
  | .linear m, .number v => if v = 2 then .ok (mul (.linear m) (.linear m) field) else .ok .nonQuadratic
  | _, _ => .ok .nonQuadratic

/-- algebra.rs:550-554 `ArithmeticExpression::prefix_sub`. -/
def prefixSub (e : AExpr K) (field : Int) : AExpr K := mul e (.number (-1)) field

/-- algebra.rs:635-642 `get_boolean_equivalence`. -/
def getBool (e : AExpr K) (field : Int) : Option Bool :=
  match e with
  | .number v => some (ModArith.asBool v field)
  | _ => none

/-- algebra.rs:784-791 `get_usize`. -/
def getUsize (e : AExpr K) : Option Nat :=
  match e with
  | .number v => ModArith.toUsize v
  | _ => none

/-- algebra.rs:110-143 `transform_expression_to_constraint_form`. -/
def toConstraint (e : AExpr K) (field : Int) : Option (Constraint K) :=
  match e with
  | .nonQuadratic => none
  | .quadratic a b c => some ⟨a, b, mulCoefs (-1) c field⟩
  | .number v => some ⟨zeroMap, zeroMap, mulCoefs (-1) (zeroMap.insert default v) field⟩
  | .signal s => some ⟨zeroMap, zeroMap, mulCoefs (-1) (zeroMap.insert s 1) field⟩
  | .linear m => some ⟨zeroMap, zeroMap, mulCoefs (-1) m field⟩

/-- algebra.rs:803-823 `hashmap_into_arith`; the same code is inlined in `decompose` (907-928). -/
def mapIntoArith (m : CMap K) : AExpr K :=
  match m with
  | [(k, v)] =>
    if k = default then .number v
    else if v = 1 then .signal k
    else .linear (initConst m)
  | _ => .linear (initConst m)

/-- algebra.rs:829-847 `Substitution::new`. -/
def Substitution.new (frm : K) (e : AExpr K) : Option (Substitution K) :=
  match e with
  | .number v => some ⟨frm, [(default, v)]⟩
  | .signal s => some ⟨frm, [(s, 1)]⟩
  | .linear m => if m.contains frm then none else some ⟨frm, m⟩
  | _ => none

/-- algebra.rs:1300-1308 `remove_zero_value_coefficients` (the loop inserts into a fresh map; keys are distinct). -/
def removeZeros (m : CMap K) : CMap K := m.filter fun e => decide (e.2 ≠ 0)

/-- algebra.rs:1281-1296 `raw_substitution`. -/
def rawSubstitution (change : CMap K) (s : Substitution K) (field : Int) : CMap K :=
  let change := initConst change
  match change.get s.frm with
  | none => change
  | some val =>
    let coefficients := mulCoefs val (initConst s.rhs) field
    addCoefs coefficients (change.remove s.frm) field

/-- algebra.rs:762-783 `ArithmeticExpression::apply_substitutions`. -/
def AExpr.applySubstitution (e : AExpr K) (s : Substitution K) (field : Int) : AExpr K :=
  match e with
  | .linear m => .linear (removeZeros (rawSubstitution m s field))
  | .signal k => if k = s.frm then .linear s.rhs else .signal k
  | .quadratic a b c => .quadratic (removeZeros (rawSubstitution a s field))
      (removeZeros (rawSubstitution b s field)) (removeZeros (rawSubstitution c s field))
  | e => e

/-- algebra.rs:890-892 `Substitution::apply_substitution`. -/
def Substitution.applySubstitution (src change : Substitution K) (field : Int) : Substitution K :=
  ⟨src.frm, rawSubstitution src.rhs change field⟩

/-- algebra.rs:894-904 `substitution_into_constraint` (`-1 % field` is `-1` in truncated division; the final `unwrap`
is on a linear expression). -/
def Substitution.intoConstraint (s : Substitution K) (field : Int) : Constraint K :=
  ⟨zeroMap, zeroMap, mulCoefs (-1) ((initConst s.rhs).insert s.frm ((-1 : Int).tmod field)) field⟩

/-- algebra.rs:906-928 `decompose`. -/
def Substitution.decompose (s : Substitution K) : K × AExpr K := (s.frm, mapIntoArith s.rhs)

/-- algebra.rs:930-937 `map_into_arith_expr`. -/
def Substitution.mapIntoArithExpr (s : Substitution K) (field : Int) : Res (AExpr K) :=
  sub (mapIntoArith s.rhs) (.signal s.frm) field

/-- algebra.rs:969-971 `rmv_zero_coefficients`. -/
def Substitution.rmvZero (s : Substitution K) : Substitution K := ⟨s.frm, removeZeros s.rhs⟩

/-- algebra.rs:951-967 `take_signals`/`take_cloned_signals` of a substitution (as a list with the map's order). -/
def Substitution.takeSignals (s : Substitution K) : List K := s.rhs.keys.filter fun k => decide (k ≠ default)

/-- algebra.rs:1053-1055 `is_linear`. -/
def Constraint.isLinear (c : Constraint K) : Bool := c.a.isEmpty && c.b.isEmpty

/-- algebra.rs:1017-1023 `Constraint::empty`. -/
def Constraint.empty : Constraint K := ⟨[], [], []⟩

/-- algebra.rs:1167-1169 `is_empty`. -/
def Constraint.isEmpty (c : Constraint K) : Bool := c.a.isEmpty && c.b.isEmpty && c.c.isEmpty

/-- algebra.rs:1082-1108 `take_signals`/`take_cloned_signals` (a set; here a list, possibly with repetitions). -/
def Constraint.takeSignals (c : Constraint K) : List K :=
  (c.a.keys ++ c.b.keys ++ c.c.keys).filter fun k => decide (k ≠ default)

/-- algebra.rs:1110-1127 `clear_signal`. -/
def clearSignal (symbols : CMap K) (key : K) (field : Int) : Res (CMap K) :=
  match symbols.get key with
  | none => .error .panic
  | some keyValue =>
    if keyValue = 0 then .error .panic
    else
      let right := ModArith.mul keyValue (-1) field
      match divCoefs right (initConst (symbols.remove key)) field with
      | .error _ => .error .panic
      | .ok m => .ok (removeZeros m)

/-- algebra.rs:1129-1139 `clear_signal_not_normalized`. -/
def clearSignalNN (symbols : CMap K) (key : K) (field : Int) : Res (Int × CMap K) :=
  match symbols.get key with
  | none => .error .panic
  | some keyValue =>
    if keyValue = 0 then .error .panic
    else .ok (ModArith.mul keyValue (-1) field, initConst (symbols.remove key))

/-- algebra.rs:1057-1066 `clear_signal_from_linear`. -/
def Constraint.clearSignalFromLinear (c : Constraint K) (signal : K) (field : Int) : Res (Substitution K) := do
  .ok ⟨signal, ← clearSignal c.c signal field⟩

/-- algebra.rs:1068-1077 `clear_signal_from_linear_not_normalized`. -/
def Constraint.clearSignalFromLinearNN (c : Constraint K) (signal : K) (field : Int) : Res (Int × Substitution K) := do
  let (k, m) ← clearSignalNN c.c signal field
  .ok (k, ⟨signal, m⟩)

/-- algebra.rs:1141-1150 `Constraint::apply_substitution`. -/
def Constraint.applySubstitution (c : Constraint K) (s : Substitution K) (field : Int) : Constraint K :=
  ⟨rawSubstitution c.a s field, rawSubstitution c.b s field, rawSubstitution c.c s field⟩

/-- algebra.rs:1152-1156 `Constraint::remove_zero_value_coefficients`. -/
def Constraint.removeZeros (c : Constraint K) : Constraint K :=
  ⟨Algebra.removeZeros c.a, Algebra.removeZeros c.b, Algebra.removeZeros c.c⟩

/-- algebra.rs:1383-1389 `is_constant_expression`. -/
def isConstantExpression (m : CMap K) : Bool := m.contains default && decide (m.length = 1)

/-- algebra.rs:1328-1347 `constant_linear_linear_reduction`; returns the new `c` (`a` and `b` are cleared).  The
`unwrap` at 1340 aborts when `a` lacks the constant key. -/
def constantReduction (a b c : CMap K) (field : Int) : Res (CMap K) :=
  let c := initConst c
  let b := initConst b
  match a.get default with
  | none => .error .panic
  | some constant =>
    let b := mulCoefs constant b field
    let b := mulCoefs (-1) b field
    .ok (removeZeros (addCoefs b c field))

/-- algebra.rs:1310-1326 `fix_raw_constraint` / 1158-1160 `fix_constraint`. -/
def Constraint.fix (k : Constraint K) (field : Int) : Res (Constraint K) :=
  let a := Algebra.removeZeros k.a
  let b := Algebra.removeZeros k.b
  let c := Algebra.removeZeros k.c
  if a.isEmpty || b.isEmpty then .ok ⟨[], [], c⟩
  else if isConstantExpression a then do .ok ⟨[], [], ← constantReduction a b c field⟩
  else if isConstantExpression b then do .ok ⟨[], [], ← constantReduction b a c field⟩
  else .ok ⟨a, b, c⟩

/-- algebra.rs:1349-1363 `signal_equals_signal`. -/
def Constraint.isEquality (k : Constraint K) (field : Int) : Bool :=
  if k.a.isEmpty && k.b.isEmpty && !k.c.contains default then
    match k.c with
    | [(_, c0), (_, c1)] => decide (ModArith.mul (-1) c1 field = c0)
    | _ => false
  else false

/-- algebra.rs:1365-1377 `signal_equals_constant`. -/
def Constraint.isConstantEquality (k : Constraint K) : Bool :=
  k.a.isEmpty && k.b.isEmpty &&
    ((k.c.contains default && decide (k.c.length = 2)) || (!k.c.contains default && decide (k.c.length = 1)))

/-- algebra.rs:1265-1279 `apply_raw_offset` (constraints and substitutions over `usize`). -/
def rawOffset (m : CMap Nat) (offset : Nat) : CMap Nat :=
  m.foldl (fun acc e => if e.1 = default then CMap.insert acc e.1 e.2 else CMap.insert acc (e.1 + offset) e.2) []

/-- algebra.rs:1215-1220 `Constraint::apply_offset`. -/
def Constraint.applyOffset (k : Constraint Nat) (offset : Nat) : Constraint Nat :=
  ⟨rawOffset k.a offset, rawOffset k.b offset, rawOffset k.c offset⟩

/-- algebra.rs:1244-1263 `apply_raw_correspondence`; `expect` aborts on an unknown signal. -/
def rawCorrespondence {K' : Type} [DecidableEq K'] [Inhabited K'] (m : CMap K) (map : K → Option K') :
    Res (CMap K') :=
  m.foldlM (fun acc e =>
    if e.1 = default then .ok (CMap.insert acc default e.2)
    else match map e.1 with
      | none => .error .panic
      | some id => .ok (CMap.insert acc id e.2)) []

/-- algebra.rs:1037-1049 `Constraint::apply_correspondence`. -/
def Constraint.applyCorrespondence {K' : Type} [DecidableEq K'] [Inhabited K'] (k : Constraint K)
    (map : K → Option K') : Res (Constraint K') := do
  let a ← rawCorrespondence k.a map
  let b ← rawCorrespondence k.b map
  let c ← rawCorrespondence k.c map
  .ok ⟨a, b, c⟩

/-- algebra.rs:1235-1242 `apply_vectored_correspondence`; indexing out of bounds aborts. -/
def rawWitness (m : CMap Nat) (witness : List Nat) : Res (CMap Nat) :=
  m.foldlM (fun acc e => match witness[e.1]? with
    | none => .error .panic
    | some id => .ok (CMap.insert acc id e.2)) []

/-- algebra.rs:1221-1226 `Constraint::apply_witness`. -/
def Constraint.applyWitness (k : Constraint Nat) (witness : List Nat) : Res (Constraint Nat) := do
  let a ← rawWitness k.a witness
  let b ← rawWitness k.b witness
  let c ← rawWitness k.c witness
  .ok ⟨a, b, c⟩

/-- The documented invariant (algebra.rs:145-152): maps inside an expression have distinct keys and contain the
constant key. -/
def ValidMap (m : CMap K) : Prop := m.WF ∧ m.contains default = true

/-- Invariant of every expression built by the operators: valid maps with canonical coefficients. -/
def AExpr.Valid (p : Nat) : AExpr K → Prop
  | .linear m => ValidMap m ∧ CanonMap p m
  | .quadratic a b c => (ValidMap a ∧ CanonMap p a) ∧ (ValidMap b ∧ CanonMap p b) ∧ (ValidMap c ∧ CanonMap p c)
  | _ => True

/-! ## Specification: meaning of expressions, constraints and substitutions -/

/-- Spec: value of a symbolic expression; `none` for the non-quadratic marker. -/
def AExpr.value {p : Nat} (ρ : K → ZMod p) : AExpr K → Option (ZMod p)
  | .number v => some (v : ZMod p)
  | .signal s => some (ρ s)
  | .linear m => some (ev ρ m)
  | .quadratic a b c => some (ev ρ a * ev ρ b + ev ρ c)
  | .nonQuadratic => none

/-- Spec: an assignment satisfies a rank-1 constraint. -/
def Constraint.Holds {p : Nat} (ρ : K → ZMod p) (k : Constraint K) : Prop := ev ρ k.a * ev ρ k.b = ev ρ k.c

/-- Spec: an assignment satisfies `from := to`. -/
def Substitution.Holds {p : Nat} (ρ : K → ZMod p) (s : Substitution K) : Prop := ρ s.frm = ev ρ s.rhs

/-- Spec: a signal occurs in a constraint. -/
def Constraint.Occurs (k : Constraint K) (s : K) : Prop := s ∈ k.a.keys ∨ s ∈ k.b.keys ∨ s ∈ k.c.keys

end Verif.Algebra
