import Verif.IrProg
import Verif.ModArithLemmas
import Mathlib.Tactic.Ring

/-!
# C79: the instructions do what the program text says

Code is translated into instructions (`translate.rs`), two passes change them (`reduce_stack.rs`, `set_arena_size.rs`), and the C++
program is printed from the result.  C79 compares a semantics of the text, in which names are arrays in scopes, with what the
instructions do to one flat memory.
-/

namespace Verif.Props.Ir

set_option linter.unusedVariables false

open Verif.Ir

/-! ## The arithmetic of a prime -/

/-- Results of the compiler's arithmetic. -/
def res (r : ModArith.Res Int) : Option Int :=
  match r with
  | .ok v => some v
  | .error _ => none

/-- Field elements as representatives in `[0, p)`.  `toInt` is what `Fr_toInt` is meant to be (C64 has what it is). -/
def prime (p : Int) : Sem Int where
  lit n := (n : Int) % p
  inf o a b :=
    match o with
    | .mul => some (ModArith.mul a b p)
    | .div => res (ModArith.div a b p)
    | .add => some (ModArith.add a b p)
    | .sub => some (ModArith.sub a b p)
    | .pow => res (ModArith.pow a b p)
    | .intDiv => res (ModArith.idiv a b p)
    | .mod => res (ModArith.modOp a b p)
    | .shiftL => res (ModArith.shiftL a b p)
    | .shiftR => res (ModArith.shiftR a b p)
    | .lesserEq => some (ModArith.lesserEq a b p)
    | .greaterEq => some (ModArith.greaterEq a b p)
    | .lesser => some (ModArith.lesser a b p)
    | .greater => some (ModArith.greater a b p)
    | .eq => some (ModArith.eq a b p)
    | .notEq => some (ModArith.notEq a b p)
    | .boolOr => some (ModArith.boolOr a b p)
    | .boolAnd => some (ModArith.boolAnd a b p)
    | .bitOr => some (ModArith.bitOr a b p)
    | .bitAnd => some (ModArith.bitAnd a b p)
    | .bitXor => some (ModArith.bitXor a b p)
  pre o a :=
    match o with
    | .sub => some (ModArith.prefixSub a p)
    | .boolNot => some (ModArith.not a p)
    | .complement => some (ModArith.complement a p)
  toInt v :=
    if 0 ≤ v ∧ v < 2 ^ 31 then some v
    else if v < p ∧ -2 ^ 31 ≤ v - p then some (v - p) else none
  truthy v := v ≠ 0

theorem toInt_near {p v z : Int} (h : (prime p).toInt v = some z) : p ∣ v - z ∧ -2 ^ 31 ≤ z ∧ z < 2 ^ 31 := by
  simp only [prime] at h
  split at h
  · simp only [Option.some.injEq] at h
    subst h
    exact ⟨by simp, by omega, by omega⟩
  · split at h
    · simp only [Option.some.injEq] at h
      subst h
      exact ⟨⟨1, by omega⟩, by omega, by omega⟩
    · cases h

theorem near_eq {p a b : Int} (hp : 2 ^ 66 ≤ p) (h : p ∣ a - b) (ha : -2 ^ 65 ≤ a - b) (hb : a - b ≤ 2 ^ 65) : a = b := by
  have := Int.eq_zero_of_dvd_of_natAbs_lt_natAbs h (by omega)
  omega

/-- Primes of more than 66 bits (all but goldilocks) have what the theorems ask for. -/
theorem C79_prime (p : Int) (hp : 2 ^ 66 ≤ p) : Laws (prime p) := by
  have hpos : 0 < p := by omega
  refine ⟨?_, ?_, ?_⟩
  · intro a b c x y z hc hx hy hz
    obtain ⟨⟨i, hi⟩, _, _⟩ := toInt_near hx
    obtain ⟨⟨j, hj⟩, _, _⟩ := toInt_near hy
    obtain ⟨⟨k, hk⟩, _, _⟩ := toInt_near hz
    simp only [prime, ModArith.add, Option.some.injEq, ModArith.modulus_eq_emod _ hpos] at hc
    have := Int.emod_add_mul_ediv (a + b) p
    refine near_eq hp ⟨i + j - (a + b) / p - k, ?_⟩ (by omega) (by omega)
    rw [hc] at this
    rw [show p * (i + j - (a + b) / p - k) = p * i + p * j - p * ((a + b) / p) - p * k by ring, ← hi, ← hj, ← hk]
    omega
  · intro a b c x y z hc hx hy hz
    obtain ⟨⟨i, hi⟩, hx1, hx2⟩ := toInt_near hx
    obtain ⟨⟨j, hj⟩, hy1, hy2⟩ := toInt_near hy
    obtain ⟨⟨k, hk⟩, _, _⟩ := toInt_near hz
    simp only [prime, ModArith.mul, Option.some.injEq, ModArith.modulus_eq_emod _ hpos] at hc
    have := Int.emod_add_mul_ediv (a * b) p
    have hxy : -2 ^ 62 ≤ x * y ∧ x * y ≤ 2 ^ 62 := by constructor <;> nlinarith
    refine near_eq hp ⟨i * b + x * j - (a * b) / p - k, ?_⟩ (by omega) (by omega)
    rw [hc] at this
    have e1 : a = x + p * i := by omega
    have e2 : b = y + p * j := by omega
    have e3 : z = c - p * k := by omega
    have e4 : c = a * b - p * (a * b / p) := by omega
    rw [e3, e4]
    have e5 : a * b = (x + p * i) * b := by rw [← e1]
    have e6 : x * b = x * (y + p * j) := by rw [← e2]
    linarith [show (x + p * i) * b = x * b + p * (i * b) by ring, show x * (y + p * j) = x * y + p * (x * j) by ring,
      show p * (i * b + x * j - a * b / p - k) = p * (i * b) + p * (x * j) - p * (a * b / p) - p * k by ring]
  · intro n z hn hz
    obtain ⟨hd, _, _⟩ := toInt_near hz
    have : (prime p).lit n = n := by
      simp only [prime]
      exact Int.emod_eq_of_lt (by omega) (by omega)
    rw [this] at hd
    exact (near_eq hp hd (by omega) (by omega)).symm

example : Laws (prime 21888242871839275222246405745257275088548364400416034343698204186575808495617) := C79_prime _ (by decide)

/-! ## Programs used as examples -/

/-- `a[i]` -/
def at1 (sig : Bool) (x : Name) (i : Expr) : Expr := .var sig x (.icons i .nil)

/-- Variable without indices. -/
def v0 (x : Name) : Expr := .var false x .nil

/-- List of statements. -/
def seq (l : List Stmt) : Stmt := l.foldr .cons .nil

/-- `function sum(a) { var s = 0; var i = 0; while (i < 2) { s = s + a[i]; i = i + 1; } return s; }` -/
def fnSum : Fn := ⟨0, [(10, [2])], [], .block (seq [
  .decl 11 [], .assign false 11 .nil (.num 0), .decl 12 [], .assign false 12 .nil (.num 0),
  .loop (.inf .lesser (v0 12) (.num 2)) (.block (seq [
    .assign false 11 .nil (.inf .add (v0 11) (at1 false 10 (v0 12))),
    .assign false 12 .nil (.inf .add (v0 12) (.num 1))])),
  .ret (v0 11)])⟩

/-- `function pair(x) { var r[2]; r[0] = x; r[1] = 2 * x; log("pair", x); return r; }` -/
def fnPair : Fn := ⟨1, [(10, [])], [2], .block (seq [
  .decl 11 [2], .assign false 11 (.icons (.num 0) .nil) (v0 10),
  .assign false 11 (.icons (.num 1) .nil) (.inf .mul (.num 2) (v0 10)),
  .log [.str "pair", .exp (v0 10)], .ret (v0 11)])⟩

/-- A template with the signals `out`, `in[2][2]`, `mid[2]`, the parameter `n = 3` and a tag `in.max = 9`:
`{ var k = n - 2; mid <-- pair(in[k][0]); log(sum(in[1])); assert(in.max > n); out <-- sum(mid) + n;
if (mid[k] == 0) { out <-- 5; } else { var m[2]; m = in[k]; mid[0] === m[0]; } }` -/
def tmplA : Tmpl := ⟨[(20, []), (21, [2, 2]), (22, [2])], [(23, [], [3])], [([21, 30], 9)], .block (seq [
  .decl 24 [], .assign false 24 .nil (.inf .sub (v0 23) (.num 2)),
  .assign true 22 .nil (.call 1 (.cons [] (.var true 21 (.icons (v0 24) (.icons (.num 0) .nil))) .nil)),
  .log [.exp (.call 0 (.cons [2] (at1 true 21 (.num 1)) .nil))],
  .assert (.inf .greater (.tag 21 [30]) (v0 23)),
  .assign true 20 .nil (.inf .add (.call 0 (.cons [2] (.var true 22 .nil) .nil)) (v0 23)),
  .ite (.inf .eq (at1 true 22 (v0 24)) (.num 0)) (.block (seq [.assign true 20 .nil (.num 5)])) (.block (seq [
    .decl 25 [2], .assign false 25 .nil (at1 true 21 (v0 24)), .eqc (at1 true 22 (.num 0)) (at1 false 25 (.num 0))]))])⟩

/-- A modulus of 67 bits. -/
def p67 : Int := 2 ^ 67 - 19

/-- The code of a program. -/
def codeOf (ts : List Tmpl) (P : List Fn) : Code := (compile ts P).getD ⟨[], [], [], []⟩

theorem codeOf_eq {ts : List Tmpl} {P : List Fn} (h : (compile ts P).isSome = true) : compile ts P = some (codeOf ts P) := by
  unfold codeOf
  cases hc : compile ts P with
  | none => rw [hc] at h; cases h
  | some c => rfl

/-- Code of a template. -/
def tmplOf (c : Code) : TmplCode := c.tmpls.headD ⟨0, 0, .nil⟩

/-- Is there a result? -/
def isOk {α : Type} : Except Err α → Bool
  | .ok _ => true
  | _ => false

/-- Is there this error? -/
def isErr {α : Type} (e : Err) : Except Err α → Bool
  | .error e' => decide (e' = e)
  | _ => false

/-! ## Theorems -/

/-- The cells hold the elements of the array in row-major order. -/
def Holds {K : Type} (v : Val K) (ks : List K) : Prop :=
  ks.length = (positions v.dims).length ∧ ∀ (i : Nat) q k, (positions v.dims)[i]? = some q → v.el q = some k → ks[i]? = some k

theorem holds_rep {K : Type} {v : Val K} {ks : List K} (h0 : 0 ∉ v.dims) (h : Holds v ks) : Rep v ks := by
  refine ⟨by rw [h.1, positions_length], h0, fun q hq k hk => h.2 _ q k (positions_get hq) hk⟩

theorem rep_holds {K : Type} {v : Val K} {ks : List K} (h : Rep v ks) : Holds v ks := by
  refine ⟨by rw [h.len, positions_length], fun i q k hq hk => ?_⟩
  rw [← positions_at hq]
  exact h.el q (positions_full (List.mem_of_getElem? hq)) k hk

/-- C79, functions: called with the elements of its arguments one after the other in an arena of at least the size the compiler
assigns, whatever else is in the arena, a compiled function fails if the function fails and otherwise prints the same and returns the
elements of the same array, without accesses outside of its memory.  Nothing is said for calls that have no meaning in the text
(elements that were never assigned, indices out of range).  Missing: calls in `log` of functions with more than 200 variables
(`C79_log_violated`), calls with arrays as results inside of expressions (`C79_equality_violated`), tags right
of `===` (`C79_tag_violated`); components and buses. -/
theorem C79_function_partial {K : Type} (S : Sem K) (L : Laws S) (chk : Bool) (ts : List Tmpl) (P : List Fn) (c : Code)
    (hc : compile ts P = some c) (hp : ProgOk P c) (junk : Nat → K) (n : Nat) (f : Name) (arena : Nat)
    (ha : ∀ fc ∈ c.fns, fc.name = f → fc.vars ≤ arena) (vs : List (Val K)) (kss : List (List K)) (h0 : ∀ v ∈ vs, 0 ∉ v.dims)
    (hv : List.Forall₂ Holds vs kss) :
    match callN S chk P n f vs with
    | .error .stuck => True
    | .error e => icall S chk c junk n f kss.flatten arena = .error e
    | .ok (v, evs) => ∃ ks, icall S chk c junk n f kss.flatten arena = .ok ((ks.length, ks), evs) ∧ Holds v ks := by
  have hrep : RepL vs kss.flatten := by
    clear ha hp hc
    induction hv with
    | nil => exact .nil
    | cons h _ ih =>
      rw [List.flatten_cons]
      exact .cons (holds_rep (h0 _ List.mem_cons_self) h) (ih fun v hv => h0 v (List.mem_cons_of_mem _ hv))
  have := call_sim L chk hc hp junk n f arena ha vs kss.flatten hrep
  rcases this.cases with h1 | ⟨er, hne, h1, h2⟩ | ⟨x, ⟨w, ks⟩, evs, h1, h2, hr⟩
  · rw [h1]; trivial
  · rw [h1, h2]; cases er <;> simp at hne ⊢
  · rw [h1, h2]
    obtain ⟨_, rfl, hr⟩ := hr
    exact ⟨ks, by rw [hr.len], rep_holds hr⟩

example : ProgOk [fnSum, fnPair] (codeOf [tmplA] [fnSum, fnPair]) ∧ (compile [tmplA] [fnSum, fnPair]).isSome = true ∧
    List.Forall₂ Holds [scalar (7 : Int)] [[7]] ∧
    (match callN (prime p67) true [fnSum, fnPair] 9 1 [scalar 7] with
      | .ok (v, evs) => decide (v.dims = [2] ∧ v.el [0] = some 7 ∧ v.el [1] = some 14 ∧ evs.length = 3) | _ => false) = true ∧
    (match icall (prime p67) true (codeOf [tmplA] [fnSum, fnPair]) (fun _ => 1000) 9 1 [7] 3 with
      | .ok (r, evs) => decide (r = (2, [7, 14]) ∧ evs.length = 3) | _ => false) = true := by
  refine ⟨⟨by decide, by decide +kernel, by decide +kernel⟩, by decide +kernel, .cons ⟨rfl, ?_⟩ .nil, by decide +kernel, by decide +kernel⟩
  intro i q k h1 h2
  cases i with
  | zero => simpa [scalar] using h2
  | succ i => simp [scalar, positions] at h1

/-- C79, templates: run on signals that have the values `vals` wherever these are known, a compiled template fails if the template
fails and otherwise prints the same and leaves in the place of each signal the value the template gives it; signals lie in order of
declaration, arrays row by row, and there are as many places as elements of signals.  Missing: see `C79_function_partial`. -/
theorem C79_template_partial {K : Type} (S : Sem K) (L : Laws S) (chk : Bool) (ts : List Tmpl) (P : List Fn) (c : Code)
    (hc : compile ts P = some c) (hp : ProgOk P c) (junk : Nat → K) (n j : Nat) (p : Tmpl) (hj : ts[j]? = some p) (ht : TmplOk P c p)
    (vals : Name → List Nat → Option K) (sg : Nat → K)
    (hsg : ∀ (i : Nat) x q k, (sigCells p)[i]? = some (x, q) → vals x q = some k → sg i = k) :
    ∃ tc, c.tmpls[j]? = some tc ∧ tc.sigs = (sigCells p).length ∧
      match execTmpl S chk P n p vals with
      | .error .stuck => True
      | .error e => runTmpl S chk c junk n tc sg = .error e
      | .ok (_, evs, some v) => ∃ m w, runTmpl S chk c junk n tc sg = .ok (m, evs, some w)
      | .ok (E, evs, none) => ∃ m, runTmpl S chk c junk n tc sg = .ok (m, evs, none) ∧
          ∀ (i : Nat) x q ent k, (sigCells p)[i]? = some (x, q) → find x E = some ent → ent.val.el q = some k → m.sg i = k := by
  obtain ⟨tc, h1, h2, h3⟩ := tmpl_sim L chk hc hp junk n hj ht vals sg hsg
  refine ⟨tc, h1, h2, ?_⟩
  rcases h3.cases with d1 | ⟨er, hne, d1, d2⟩ | ⟨x, y, evs, d1, d2, hr⟩ | ⟨x, y, evs, v, w, d1, d2, hq⟩
  · rw [d1]; trivial
  · rw [d1, d2]; cases er <;> simp at hne ⊢
  · rw [d1, d2]; exact ⟨y, rfl, hr⟩
  · rw [d1, d2]; exact ⟨y, w, rfl⟩

/-- Signals of `tmplA`. -/
def sgA (i : Nat) : Int := if i = 1 then 3 else if i = 2 then 4 else if i = 3 then 7 else if i = 4 then 6 else 1000

/-- Known values of the signals of `tmplA`. -/
def valsA (x : Name) (q : List Nat) : Option Int := if x = 21 then some (sgA (1 + 2 * q.headD 0 + q.tail.headD 0)) else none

example : TmplOk [fnSum, fnPair] (codeOf [tmplA] [fnSum, fnPair]) tmplA ∧
    (∀ (i : Nat) x q k, (sigCells tmplA)[i]? = some (x, q) → valsA x q = some k → sgA i = k) ∧
    (match execTmpl (prime p67) true [fnSum, fnPair] 9 tmplA valsA with
      | .ok (E, evs, none) => decide (((find 20 E).bind fun e => e.val.el []) = some 24 ∧ evs.length = 5) | _ => false) = true ∧
    (match runTmpl (prime p67) true (codeOf [tmplA] [fnSum, fnPair]) (fun _ => 77) 9 (tmplOf (codeOf [tmplA] [fnSum, fnPair])) sgA with
      | .ok (m, evs, none) => decide ((List.range 8).map m.sg = [24, 3, 4, 7, 6, 7, 14, 1000] ∧ evs.length = 5) | _ => false) = true := by
  refine ⟨⟨by decide +kernel, by decide +kernel, by decide +kernel, by decide +kernel, by decide +kernel, by decide +kernel⟩, ?_,
    by decide +kernel, by decide +kernel⟩
  intro i x q k h1 h2
  have hlen : (sigCells tmplA).length = 7 := by decide +kernel
  have hi : i < 7 := by rw [← hlen]; exact (List.getElem?_eq_some_iff.1 h1).1
  have h : ∀ i < 7, ∀ e ∈ (sigCells tmplA)[i]?, ∀ k ∈ valsA e.1 e.2, sgA i = k := by decide +kernel
  exact h i hi _ h1 _ h2

/-- C79, addresses: folding the arithmetic of constant addresses changes nothing. -/
theorem C79_reduce {K : Type} (S : Sem K) (chk : Bool) (cfg : Cfg) (F : IFns K) (n : Nat) (s s' : IS) (h : reduceS s = some s') (m : Mem K) :
    run S chk cfg F n s' m = run S chk cfg F n s m := by
  rw [run_reduce h]

example : (match reduceS (.cons (.store false (.comp2 .addAddress (.comp2 .mulAddress (.u32 3) (.u32 4)) (.u32 5)) (.big 0) 1 1) .nil) with
    | some s' => decide (s' = .cons (.store false (.u32 17) (.big 0) 1 1) .nil) | none => false) = true := by decide +kernel

/-! ## Faults -/

/-- `function big(x) { var a[201]; a[200] = x; return a[200]; }` -/
def fnBig : Fn := ⟨2, [(10, [])], [], .block (seq [
  .decl 11 [201], .assign false 11 (.icons (.num 200) .nil) (v0 10), .ret (at1 false 11 (.num 200))])⟩

/-- A template with one signal `s[2]`. -/
def tmplOne (s : Stmt) : Tmpl := ⟨[(20, [2])], [], [([20, 30], 9)], .block (seq [s])⟩

/-- `pair(3)` -/
def pair3 : Expr := .call 1 (.cons [] (.num 3) .nil)

/-- Reference and program for a template with one statement; `s` is the signal. -/
def both (P : List Fn) (st : Stmt) (s : List Int) : Except Err (List Int) × Except Err (List Int) :=
  (match execTmpl (prime p67) true P 9 (tmplOne st) (fun x q => if x = 20 then s[q.headD 0]? else none) with
    | .error e => .error e
    | .ok (E, _, _) => .ok ((List.range 2).filterMap fun i => (find 20 E).bind fun e => e.val.el [i]),
   match runTmpl (prime p67) true (codeOf [tmplOne st] P) (fun _ => 77) 9 (tmplOf (codeOf [tmplOne st] P)) (fun i => s.getD i 55) with
    | .error e => .error e
    | .ok (m, _, _) => .ok ((List.range 2).map m.sg))

/-- C79 is violated for calls in `log`: `set_arena_size.rs:79` changes a copy of the arguments of the instruction, so the arena of such
a call keeps the 200 places it was created with, whatever the number of variables of the function.  `log(big(3))` means to print 3;
the program writes outside of the arena. -/
theorem C79_log_violated : ∃ (st : Stmt) (P : List Fn) (s : List Int), (compile [tmplOne st] P).isSome = true ∧
    isOk (both P st s).1 = true ∧ isErr .stuck (both P st s).2 = true :=
  ⟨.log [.exp (.call 2 (.cons [] (.num 3) .nil))], [fnBig], [1, 2], by decide +kernel, by decide +kernel, by decide +kernel⟩

/-- C79 is violated for arrays returned by functions in `===`: on the right side the size of the comparison is that of an expression
with one element (translate.rs:683-712), so only the first elements are compared: `s === pair(3)` with `s = [3, 100]` means to fail and
passes. -/
theorem C79_equality_violated : ∃ (st : Stmt) (P : List Fn) (s : List Int), (compile [tmplOne st] P).isSome = true ∧
    isErr .fail (both P st s).1 = true ∧ isOk (both P st s).2 = true :=
  ⟨.eqc (.var true 20 .nil) pair3, [fnPair], [3, 100], by decide +kernel, by decide +kernel, by decide +kernel⟩

/-- On the left side all elements are compared, but the result of the call has place for one: `pair(3) === s` reads beyond it. -/
theorem C79_equality_left_violated : ∃ (st : Stmt) (P : List Fn) (s : List Int), (compile [tmplOne st] P).isSome = true ∧
    isOk (both P st s).1 = true ∧ isErr .stuck (both P st s).2 = true :=
  ⟨.eqc pair3 (.var true 20 .nil), [fnPair], [3, 6], by decide +kernel, by decide +kernel, by decide +kernel⟩

/-- The translation is not total: `s[0] === s.max` panics (the right side is taken for a signal, translate.rs:683-712), while
`s.max === s[0]` is translated. -/
theorem C79_tag_violated : ∃ (l r : Expr) (s : List Int), isOk (both [] (.eqc l r) s).1 = true ∧
    (compile [tmplOne (.eqc l r)] []).isSome = false ∧ (compile [tmplOne (.eqc r l)] []).isSome = true :=
  ⟨at1 true 20 (.num 0), .tag 20 [30], [9, 5], by decide +kernel, by decide +kernel, by decide +kernel⟩

end Verif.Props.Ir
