import Verif.SugarFns
import Verif.SugarFlat

/-!
# C71: desugaring keeps the meaning of code

`clean_sugar` rewrites the code of every template and function: calls, conditional expressions and inline arrays inside expressions
are taken out into temporaries assigned in front of the statement, assignments of conditional expressions become conditional
statements, inline arrays become assignments and equalities of elements.  The full property: the rewritten program yields the same
results and the same values of all variables as the source, and the translation accepts it.

It does not hold for all sources (`…_violated` below).  The `_partial` theorems say for which it does.
-/

set_option linter.unusedSimpArgs false
set_option linter.unusedVariables false

namespace Verif.Props.Sugar

open Verif.Sugar

variable {K : Type}

/-- Whatever the rewritten program computes is what the source computes.  Missing for the full property: loops whose condition or
(unbraced) body contains calls, conditional expressions or arrays; `x = [… x …]`; equalities of an inline array and something that is
not an inline array of the same length.  For these it is false or not decided by the text alone (`C71_equality_partial`). -/
theorem C71_sound_partial (S : Sem K) (T : Table K) (mixed : Name → Bool) (ss : List (Stmt K)) (hT : tameT T) (hs : tameL mixed ss)
    (n : Nat) (E E' : Env K) (r : Option (Val K))
    (h : exec S (callN S (cleanT S T) n) n (clean S mixed (.block ss)) E = some (E', r)) :
    ∃ E1, exec S (callN S T n) n (.block ss) E = some (E1, r) ∧ ∀ x, E1 (.src x) = E' (.src x) := by
  have h1 := exec_mono (callN_sound T hT n) _ _ _ h
  obtain ⟨E1, h2, h3⟩ := (clean_sim (S := S) (N := n) (callN S T n) ss hs E).1 E' r h1
  exact ⟨E1, h2, fun x => h3 _ trivial⟩

/-- Whatever the source computes the rewritten program computes, if moreover the branches of conditional expressions contain nothing
to take out, and nothing is put in front of the branches of conditional statements (braces do that).  Without it see
`C71_recursion_violated`. -/
theorem C71_complete_partial (S : Sem K) (T : Table K) (mixed : Name → Bool) (ss : List (Stmt K)) (hT : tameT T) (hs : tameL mixed ss)
    (hST : strictT T) (hss : strictL mixed ss = true) (n : Nat) (E E1 : Env K) (r : Option (Val K))
    (h : exec S (callN S T n) n (.block ss) E = some (E1, r)) :
    ∃ E', exec S (callN S (cleanT S T) n) n (clean S mixed (.block ss)) E = some (E', r) ∧ ∀ x, E1 (.src x) = E' (.src x) := by
  have h1 := clean_sim (S := S) (N := n) (callN S T n) ss hs E
  obtain ⟨⟨E', q⟩, h2⟩ := Option.isSome_iff_exists.1 (h1.2 hss (by rw [h]; rfl))
  obtain ⟨E2, h3, h4⟩ := h1.1 E' q h2
  rw [h] at h3
  simp only [Option.some.injEq, Prod.mk.injEq] at h3
  obtain ⟨rfl, rfl⟩ := h3
  exact ⟨E', exec_mono (callN_complete T hT hST n) _ _ _ h2, fun x => h4 _ trivial⟩

/-- Functions: what a call of the rewritten function returns. -/
theorem C71_functions_partial (S : Sem K) (T : Table K) (hT : tameT T) (n f : Nat) (args : List (Val K)) (v : Val K) :
    (callN S (cleanT S T) n f args = some v → callN S T n f args = some v) ∧
    (strictT T → callN S T n f args = some v → callN S (cleanT S T) n f args = some v) :=
  ⟨callN_sound T hT n f args v, fun h => callN_complete T hT h n f args v⟩

/-- The translation accepts the rewritten code: no inline array or conditional expression is left, no initialisation block, and no
`return` of a call.  Missing: sources as in `C71_leftover_violated`. -/
theorem C71_translatable_partial (S : Sem K) (mixed : Name → Bool) (ss : List (Stmt K)) (h : neatL ss = true) :
    flatS (clean S mixed (.block ss)) = true := by
  simp only [clean, extS, flatS, flatL_all]
  exact extL_flat ss h 0 _

/-- An equality of an inline array and a variable, when the variable has as many elements. -/
theorem C71_equality_partial (S : Sem K) (F : Fns K) (N : Nat) (d ds : List Nat) (vs : List (Expr K)) (x : Name) (acc : List (Acc K))
    (E : Env K) (hl : wfE (.arr d vs)) (p : List Nat) (bs : List (Val K)) (hp : path S F E acc = some p)
    (hf : fetch p (E x) = some (.arr bs)) (hlen : bs.length = vs.length) :
    execL S F N (splitEq (.eqc (.arr d vs) (.var (vs.length :: ds) x acc))) E =
      exec S F N (.eqc (.arr d vs) (.var (vs.length :: ds) x acc)) E ∧
    execL S F N (splitEq (.eqc (.var (vs.length :: ds) x acc) (.arr d vs))) E =
      exec S F N (.eqc (.var (vs.length :: ds) x acc) (.arr d vs)) E := by
  have h := exec_eqArr_var (N := N) d ds vs x acc E hl p bs hp hf hlen
  refine ⟨h, ?_⟩
  rw [exec_eqc_comm]
  exact h

/-! ## Examples and witnesses -/

/-- Integers. -/
def ints : Sem Int where
  zero := 0
  op := fun o a b => match o with
    | .add => some (a + b)
    | .pow => some (a ^ b.toNat)
    | .other 0 => some (a - b)
    | .other 1 => some (a * b)
    | .other 2 => some (if a = b then 1 else 0)
    | .other 3 => some (if a < b then 1 else 0)
    | .other _ => if b = 0 then none else some (a / b)
  pre := fun _ a => some (-a)
  index := fun v => if v < 0 then none else some v.toNat
  truthy := fun v => decide (v ≠ 0)
  eq := fun a b => decide (a = b)
  zero_add := fun v => by simp
  eq_comm := fun a b => by simp [eq_comm]

/-- A variable without accesses, one that is an array of two, an element. -/
def v (x : Nat) : Expr Int := .var [] (.src x) []
def v2 (x : Nat) : Expr Int := .var [2] (.src x) []
def at' (x : Nat) (i : Expr Int) : Expr Int := .var [] (.src x) [.idx i]

def isNum (k : Int) : Option (Val Int) → Bool
  | some (.num a) => decide (a = k)
  | _ => false

def returns (k : Int) : Option (Env Int × Option (Val Int)) → Bool
  | some (_, some (.num a)) => decide (a = k)
  | _ => false

def empty : Env Int := fun _ => .undef

/-- `function f(a) { return [a, a + 1]; }` and `function g(a) { var b[2] = f(a * a); return b[a < 2 ? 0 : 1]; }` -/
def tab : Table Int
  | 0 => some ([.src 0], .block [.ret (.arr [2] [v 0, .infix .add (v 0) (.num 1)])])
  | 1 => some ([.src 0], .block [.decl (.src 1) [2], .assign (.src 1) [] (.call [2] 0 [.infix (.other 1) (v 0) (v 0)]),
      .ret (at' 1 (.switch [] (.infix (.other 3) (v 0) (.num 2)) (.num 0) (.num 1)))])
  | _ => none

/-- `y = [g(2), 7]; while (i < 2) { s = s + (i == 0 ? y[i] : 10 * y[i]); i = i + 1; } return s + g(g(1))` -/
def prog : List (Stmt Int) :=
  [.decl (.src 2) [2], .decl (.src 3) [], .decl (.src 4) [], .assign (.src 3) [] (.num 0), .assign (.src 4) [] (.num 0),
   .assign (.src 2) [] (.arr [2] [.call [] 1 [.num 2], .num 7]),
   .loop (.infix (.other 3) (v 3) (.num 2)) (.block
     [.assign (.src 4) [] (.infix .add (v 4) (.switch [] (.infix (.other 2) (v 3) (.num 0)) (at' 2 (v 3))
        (.infix (.other 1) (.num 10) (at' 2 (v 3))))),
      .assign (.src 3) [] (.infix .add (v 3) (.num 1))]),
   .ret (.infix .add (v 4) (.call [] 1 [.call [] 1 [.num 1]]))]

theorem tab_tame : tameT tab := by
  intro f xs body h
  match f with
  | 0 =>
    simp only [tab, Option.some.injEq, Prod.mk.injEq] at h
    obtain ⟨-, rfl⟩ := h
    refine ⟨_, rfl, ?_⟩
    simp [tameL, tameS, okE, usesE, usesEs, usesAs, wfE, wfEs, wfAs, below, v, dims]
  | 1 =>
    simp only [tab, Option.some.injEq, Prod.mk.injEq] at h
    obtain ⟨-, rfl⟩ := h
    refine ⟨_, rfl, ?_⟩
    simp [tameL, tameS, okE, usesE, usesEs, usesAs, usesA, wfE, wfEs, wfAs, wfA, below, v, at', dims, litOk]
  | n + 2 => simp [tab] at h

theorem tab_strict : strictT tab := by
  intro f xs body h
  match f with
  | 0 =>
    simp only [tab, Option.some.injEq, Prod.mk.injEq] at h
    obtain ⟨-, rfl⟩ := h
    rfl
  | 1 =>
    simp only [tab, Option.some.injEq, Prod.mk.injEq] at h
    obtain ⟨-, rfl⟩ := h
    rfl
  | n + 2 => simp [tab] at h

theorem prog_tame : tameL (fun _ => false) prog := by
  simp [prog, tameL, tameS, okE, usesE, usesEs, usesAs, usesA, wfE, wfEs, wfAs, wfA, below, v, at', dims, litOk, quietE, quietAs, quietA,
    quietS, isSugar]

/-- The hypotheses hold and the run yields 5 + 70 + 1. -/
example : tameT tab ∧ tameL (fun _ => false) prog ∧ strictT tab ∧ strictL (fun _ => false) prog = true ∧ neatL prog = true ∧
    returns 76 (exec ints (callN ints (cleanT ints tab) 5) 5 (clean ints (fun _ => false) (.block prog)) empty) = true ∧
    returns 76 (exec ints (callN ints tab 5) 5 (.block prog) empty) = true :=
  ⟨tab_tame, prog_tame, tab_strict, by decide +kernel, by decide +kernel, by decide +kernel, by decide +kernel⟩

/-- The function `g`. -/
example : isNum 5 (callN ints (cleanT ints tab) 3 1 [.num 2]) = true ∧ isNum 5 (callN ints tab 3 1 [.num 2]) = true :=
  ⟨by decide +kernel, by decide +kernel⟩

/-- `[1, 2] === y` with `y` the array `1, 2`. -/
example : (match execL ints (fun _ _ => none) 1 (splitEq (.eqc (.arr [2] [.num 1, .num 2]) (v2 0)))
      (empty.put (.src 0) (.arr [.num 1, .num 2])) with | some _ => true | none => false) = true ∧
    (match execL ints (fun _ _ => none) 1 (splitEq (.eqc (.arr [2] [.num 1, .num 3]) (v2 0)))
      (empty.put (.src 0) (.arr [.num 1, .num 2])) with | some _ => true | none => false) = false :=
  ⟨by decide +kernel, by decide +kernel⟩

/-! ### Conditions of loops -/

/-- `function f(i) { return 3 - i; }` -/
def loopTab : Table Int
  | 0 => some ([.src 0], .block [.ret (.infix (.other 0) (.num 3) (v 0))])
  | _ => none

/-- `var i = 0; while (f(i)) { i = i + 1; if (i == 5) { return 5; } } return 100;` -/
def loopProg : List (Stmt Int) :=
  [.decl (.src 0) [], .assign (.src 0) [] (.num 0),
   .loop (.call [] 0 [v 0]) (.block [.assign (.src 0) [] (.infix .add (v 0) (.num 1)),
     .ite (.infix (.other 2) (v 0) (.num 5)) (.block [.ret (.num 5)]) (.block [])]),
   .ret (.num 100)]

/-- A call in the condition of a loop is evaluated once, in front of the loop: another result. -/
theorem C71_condition_violated :
    returns 100 (exec ints (callN ints loopTab 9) 9 (.block loopProg) empty) = true ∧
    returns 5 (exec ints (callN ints (cleanT ints loopTab) 9) 9 (clean ints (fun _ => false) (.block loopProg)) empty) = true :=
  ⟨by decide +kernel, by decide +kernel⟩

/-- `var i = 1; while (i < 5) i = i + g(i); return i;` -/
def bodyProg : List (Stmt Int) :=
  [.decl (.src 0) [], .assign (.src 0) [] (.num 1),
   .loop (.infix (.other 3) (v 0) (.num 5)) (.assign (.src 0) [] (.infix .add (v 0) (.call [] 1 [v 0]))),
   .ret (v 0)]

/-- `function g(i) { return i; }` -/
def bodyTab : Table Int
  | 1 => some ([.src 0], .block [.ret (v 0)])
  | _ => none

/-- The body of a loop without braces: the call is made once, so `i` is 1, 2, 3, 4, 5 and not 1, 2, 4, 8. -/
theorem C71_body_violated :
    returns 8 (exec ints (callN ints bodyTab 9) 9 (.block bodyProg) empty) = true ∧
    returns 5 (exec ints (callN ints (cleanT ints bodyTab) 9) 9 (clean ints (fun _ => false) (.block bodyProg)) empty) = true :=
  ⟨by decide +kernel, by decide +kernel⟩

/-! ### Literals that name the variable -/

/-- `x = [x[1], x[0]]` does not exchange the elements. -/
def swapProg : List (Stmt Int) :=
  [.decl (.src 0) [2], .assign (.src 0) [] (.arr [2] [.num 1, .num 2]),
   .assign (.src 0) [] (.arr [2] [at' 0 (.num 1), at' 0 (.num 0)]),
   .ret (.infix .add (.infix (.other 1) (.num 10) (at' 0 (.num 0))) (at' 0 (.num 1)))]

theorem C71_swap_violated :
    returns 21 (exec ints (fun _ _ => none) 1 (.block swapProg) empty) = true ∧
    returns 22 (exec ints (fun _ _ => none) 1 (clean ints (fun _ => false) (.block swapProg)) empty) = true :=
  ⟨by decide +kernel, by decide +kernel⟩

/-! ### Recursion -/

/-- `function fact(n) { return n == 0 ? 1 : n * fact(n - 1); }` -/
def factTab : Table Int
  | 0 => some ([.src 0], .block [.ret (.switch [] (.infix (.other 2) (v 0) (.num 0)) (.num 1)
      (.infix (.other 1) (v 0) (.call [] 0 [.infix (.other 0) (v 0) (.num 1)])))])
  | _ => none

/-- `function fact(n) { if (n == 0) return 1; else return n * fact(n - 1); }` -/
def factTab2 : Table Int
  | 0 => some ([.src 0], .block [.ite (.infix (.other 2) (v 0) (.num 0)) (.ret (.num 1))
      (.ret (.infix (.other 1) (v 0) (.call [] 0 [.infix (.other 0) (v 0) (.num 1)])))])
  | _ => none

theorem fact_loops (T : Table Int) (rest : List (Stmt Int))
    (h : cleanT ints T 0 = some ([.src 0], .block (.decl (.auto 0) [] ::
      .assign (.auto 0) [] (.call [] 0 [.infix (.other 0) (v 0) (.num 1)]) :: rest))) :
    ∀ (n : Nat) (args : List (Val Int)), callN ints (cleanT ints T) n 0 args = none
  | 0, _ => rfl
  | n + 1, args => by
    have ih := fact_loops T rest h n
    simp only [callN, h, exec, execL, path, eval]
    split
    · rename_i heq
      revert heq
      rcases hv : evalL ints (callN ints (cleanT ints T) n) ((bind [.src 0] args).put (.auto 0) (blank [])) [.infix (.other 0) (v 0) (.num 1)]
        with _ | vs
      · simp
      · simp [ih, checked]
    · rfl

/-- The recursive call is made before the condition is looked at: the rewritten functions never return, whatever the depth of calls
allowed. -/
theorem C71_recursion_violated :
    isNum 120 (callN ints factTab 9 0 [.num 5]) = true ∧ (∀ n args, callN ints (cleanT ints factTab) n 0 args = none) ∧
    isNum 120 (callN ints factTab2 9 0 [.num 5]) = true ∧ (∀ n args, callN ints (cleanT ints factTab2) n 0 args = none) ∧
    tameT factTab ∧ tameT factTab2 := by
  refine ⟨by decide +kernel, fact_loops factTab _ rfl, by decide +kernel, fact_loops factTab2 _ rfl, ?_, ?_⟩
  · intro f xs body h
    match f with
    | 0 =>
      simp only [factTab, Option.some.injEq, Prod.mk.injEq] at h
      obtain ⟨-, rfl⟩ := h
      refine ⟨_, rfl, ?_⟩
      simp [tameL, tameS, okE, usesE, usesEs, usesAs, wfE, wfEs, wfAs, below, v, dims]
    | n + 1 => simp [factTab] at h
  · intro f xs body h
    match f with
    | 0 =>
      simp only [factTab2, Option.some.injEq, Prod.mk.injEq] at h
      obtain ⟨-, rfl⟩ := h
      refine ⟨_, rfl, ?_⟩
      simp [tameL, tameS, okE, usesE, usesEs, usesAs, wfE, wfEs, wfAs, below, v, dims]
    | n + 1 => simp [factTab2] at h

/-! ### What is left -/

/-- The translation meets code it cannot treat (and panics) for `if (a) x = b ? 1 : 2;`, `if (a) return f(b);` (no braces),
`x = (b ? a : b) ? 1 : 2;` and `assert(a ? b : a);`. -/
theorem C71_leftover_violated :
    flatS (clean ints (fun _ => false) (.block [.ite (v 0) (.assign (.src 1) [] (.switch [] (v 2) (.num 1) (.num 2))) (.block [])])) = false ∧
    flatS (clean ints (fun _ => false) (.block [.ite (v 0) (.ret (.call [] 0 [v 1])) (.block [])])) = false ∧
    flatS (clean ints (fun _ => false) (.block [.assign (.src 1) [] (.switch [] (.switch [] (v 2) (v 0) (v 2)) (.num 1) (.num 2))])) = false ∧
    flatS (clean ints (fun _ => false) (.block [.assert (.switch [] (v 2) (v 0) (v 2))])) = false :=
  ⟨by decide +kernel, by decide +kernel, by decide +kernel, by decide +kernel⟩

/-! ### Lost equalities -/

/-- `[1, 2] === f(0)` disappears, whatever the function returns. -/
theorem C71_equality_violated (F : Fns Int) (n : Nat) (E : Env Int) :
    (∃ E', exec ints F n (clean ints (fun _ => false) (.block [.eqc (.arr [2] [.num 1, .num 2]) (.call [2] 0 [.num 0])])) E = some (E', none)) ∧
    ((∀ vs, F 0 vs = some (.arr [.num 1, .num 3])) →
      exec ints F n (.block [.eqc (.arr [2] [.num 1, .num 2]) (.call [2] 0 [.num 0])]) E = none) := by
  refine ⟨⟨E, rfl⟩, fun h => ?_⟩
  simp [exec, execL, eval, evalL, checked, fits, fitsL, h, same, sameL, ints]

end Verif.Props.Sugar
