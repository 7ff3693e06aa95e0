import Verif.AnonClean
import Verif.AnonTotal

/-!
C74: after the removal of syntactic sugar no anonymous component and no tuple is left. C75: the removal
keeps what a template does.
-/

set_option linter.unusedVariables false

namespace Verif.Props.Anon

open Verif.Anon
open Verif.Exec (envGet)

/-! ### A concrete setting -/

/-- Templates 1 with input 3 and output 4, and 2 with inputs 5, 6 and outputs 7, 8. -/
def templs : Nat → Option Templ
  | 1 => some ⟨[3], [4]⟩
  | 2 => some ⟨[6, 5], [7, 8]⟩
  | _ => none

/-- The names the pass invents. -/
def names : Names := ⟨fun pos => 1000 + pos, fun t pos => 2000 + 100 * t + pos⟩

/-- Integers; an output is the sum of the parameters and inputs plus the number of the output, an operator
is 0: sum, 1: less than. -/
def ints : Ops Int where
  num v := v
  undef := 0
  idx v := if 0 ≤ v then some v.toNat else none
  op k vs :=
    match k, vs with
    | 1, [a, b] => some (if a < b then 1 else 0)
    | 0, vs => some vs.sum
    | _, _ => none
  arr vs := vs.sum
  truth v := some (v ≠ 0)
  out _ ps ins o := some (ps.sum + (ins.map (·.2)).sum + o)

theorem ints_law (n : Nat) : ints.idx (ints.num n) = some n := by simp [ints]

theorem templs_nodup : ∀ t tm, templs t = some tm → tm.inputs.Nodup := by
  intro t tm h
  unfold templs at h
  split at h
  · cases h; decide
  · cases h; decide
  · cases h

/-- `A(7)(x)` at a position. -/
def callA (pos : Nat) (x : SExpr) : SExpr := .anon pos 1 (args [.num 7]) none (args [x]) false

/-- `var x = 0; var i = 0; while (i < 2) { x = A(7)(A(7)(i)); i = i + 1; } (x, (y, _)) = (x + 1, B()(p <== i, q <== 5));` -/
def sample : SStmt :=
  chain [.init (chain [.decl 10 .nil, .assign 10 .var (.num 0)]),
    .init (chain [.decl 11 .nil, .assign 11 .var (.num 0)]), .decl 12 .nil,
    .while 5 (.op false 1 (args [.var 11, .num 2])) (.block (chain [
      .assign 10 .var (callA 20 (callA 21 (.var 11))),
      .assign 11 .var (.op false 0 (args [.var 11, .num 1]))])),
    .mult (.tuple (args [.var 10, .tuple (args [.var 12, .var 0])])) .con
      (.tuple (args [.op false 0 (args [.var 10, .num 1]),
        .anon 30 2 .nil (some [(.con, 5), (.con, 6)]) (args [.var 11, .num 5]) false])),
    .emit (args [.var 10, .var 12])]

/-! ### C74 -/

/-- C74, what holds: when what the pass checks of every anonymous component is also true for those under
`parallel`, a template that comes out of the pass contains no anonymous component and no tuple. -/
theorem C74_partial {N : Names} {T : Nat → Option Templ} {b s : SStmt} (h : desugar N T b = .ok s)
    (hp : parOkS b = true) (hw : wfS b = true) : clean s = true :=
  desugar_clean h hp hw

example : (match desugar names templs sample with | .ok s => clean s | .error _ => false) = true ∧
    parOkS sample = true ∧ wfS sample = true ∧ hasAnon (callA 20 (.var 11)) = true := by decide +kernel

/-- C74 does not hold as stated: `x = parallel A(7)(1 + A(7)(x))`; the checks do not look inside an anonymous
component under `parallel`, so the inner one stays (and ends in `unreachable!` later). Without `parallel`
the template is rejected. -/
theorem C74_violated :
    let inner := SExpr.op false 0 (args [.num 1, callA 21 (.var 10)])
    (match desugar names templs (chain [.decl 10 .nil, .assign 10 .var (.par (callA 20 inner))]) with
      | .ok s => decide (clean s = false)
      | .error _ => false) = true ∧
    (match desugar names templs (chain [.decl 10 .nil, .assign 10 .var (callA 20 inner)]) with
      | .ok _ => false
      | .error e => decide (e = .misplaced)) = true := by decide +kernel

/-- The same with an anonymous component among the parameters: `x = parallel A(A(7)(x))(x)`. -/
theorem C74_violated_parameter :
    (match desugar names templs (chain [.decl 10 .nil, .assign 10 .var
        (.par (.anon 20 1 (args [callA 21 (.var 10)]) none (args [.var 10]) false))]) with
      | .ok s => decide (clean s = false)
      | .error _ => false) = true := by decide +kernel

/-- C74, termination without abort: on a template as the user writes it the pass gives a template or a
report. -/
theorem C74_total {N : Names} {T : Nat → Option Templ} {L : List Nat} {b : SStmt} (hs : srcS L b = true)
    (hw : wfS b = true) (hm : matchedS b = true) (hp : parOkS b = true) : desugar N T b ≠ .error .panic :=
  desugar_total hs hw hm hp

example : srcS [] sample = true ∧ wfS sample = true ∧ matchedS sample = true ∧ parOkS sample = true := by
  decide +kernel

/-! ### C75 -/

/-- C75, what holds: for a template whose body is `{ b }`, where the names the pass invents are different
from each other and not used by the user, and where no element of a tuple with an anonymous component reads
a variable assigned by an earlier element of the same assignment: if the template runs, the template
without sugar runs as well, and gives the same variables, the same assignments to signals and checks in the
same order, and the same instances with the same parameters and inputs in the same order; no two instances
have the same place. -/
theorem C75_partial {V : Type} {O : Ops V} {T : Nat → Option Templ} {N : Names}
    (law : ∀ n : Nat, O.idx (O.num n) = some n) (hT : ∀ t tm, T t = some tm → tm.inputs.Nodup)
    {b s : SStmt} (h : desugar N T b = .ok s) (hp : parOkS b = true) (hw : wfS b = true)
    (hsrc : srcS (loops N b) b = true) (hind : apartS T b = true) (hl : (loops N b).Nodup)
    (hn : (sitesS N b).Nodup) (hu : underscore ∉ loops N b) (fuel : Nat) {env : List (List (Nat × V))}
    (henv : ∀ l ∈ loops N b, envGet env l = none) {D : DSt V}
    (hD : runD O T fuel (.block b) ⟨env, [], []⟩ = some D) :
    ∃ P, runP O T fuel s ⟨env, [], []⟩ = some P ∧ P.env = D.env ∧ P.log = D.log ∧
      P.store.map (·.2) = D.insts ∧ (P.store.map (·.1)).Nodup := by
  rw [runD] at hD
  cases hr : runD O T fuel b ⟨[] :: env, [], []⟩ with
  | none => rw [hr] at hD; cases hD
  | some D1 =>
    rw [hr] at hD
    cases hD
    obtain ⟨body, P, rfl, h1, h2, h3, h4, h5, _⟩ := desugar_run law hT h hp hw hsrc hind hl hn hu fuel henv hr
    exact ⟨⟨P.env.tail, P.log, P.store⟩, by rw [runP, h1], h2, h3, h4, h5⟩

example : parOkS sample = true ∧ wfS sample = true ∧ srcS (loops names sample) sample = true ∧
    apartS templs sample = true ∧ (loops names sample).Nodup ∧ (sitesS names sample).Nodup ∧
    underscore ∉ loops names sample ∧
    (match runD ints templs 5 (.block sample) ⟨[[]], [], []⟩ with
      | some D => decide (D.insts.length = 5 ∧ D.log = [.set 10 .con 24, .set 12 .con 14, .set 0 .con 15, .emit [24, 14]])
      | none => false) = true := by decide +kernel

/-- C75, dimensions: the component for an anonymous component in a loop is declared as an array whose size is
the value of the counter at the end, and every instance lies inside. -/
theorem C75_sizes {V : Type} {O : Ops V} {T : Nat → Option Templ} {N : Names}
    (law : ∀ n : Nat, O.idx (O.num n) = some n) (hT : ∀ t tm, T t = some tm → tm.inputs.Nodup)
    {b s : SStmt} (h : desugar N T b = .ok s) (hp : parOkS b = true) (hw : wfS b = true)
    (hsrc : srcS (loops N b) b = true) (hind : apartS T b = true) (hl : (loops N b).Nodup)
    (hn : (sitesS N b).Nodup) (hu : underscore ∉ loops N b) (fuel : Nat) {env : List (List (Nat × V))}
    (henv : ∀ l ∈ loops N b, envGet env l = none) {D : DSt V}
    (hD : runD O T fuel b ⟨[] :: env, [], []⟩ = some D) :
    ∃ body P, s = .block body ∧ runP O T fuel body ⟨[] :: env, [], []⟩ = some P ∧
      ∀ k ∈ P.store.map (·.1), ((k.1, none) ∈ declared body ∧ k.2 = 0) ∨
        ∃ l n : Nat, (k.1, some l) ∈ declared body ∧ envGet P.env l = some (O.num n) ∧ k.2 < n := by
  obtain ⟨body, P, h0, h1, _, _, _, _, h6⟩ := desugar_run law hT h hp hw hsrc hind hl hn hu fuel henv hD
  exact ⟨body, P, h0, h1, h6⟩

example : (match desugar names templs sample with
    | .ok (.block body) =>
      decide (declared body = [(2120, some 1005), (2121, some 1005), (2230, none)]) &&
      match runP ints templs 5 body ⟨[[], []], [], []⟩ with
      | some P => decide (P.store.map (·.1) = [(2120, 0), (2121, 0), (2120, 1), (2121, 1), (2230, 0)] ∧
          envGet P.env 1005 = some 2)
      | none => false
    | _ => false) = true := by decide +kernel

/-- C75 does not hold as stated: `(x, y) = (1, A(7)(x))`. Element by element, `x` is 1 when the input of the
component is assigned; the pass puts the assignments of the inputs before all of the elements, so the component
gets the value `x` had before, here 5. -/
theorem C75_violated :
    let b := chain [.decl 10 .nil, .assign 10 .var (.num 5), .decl 11 .nil,
      .mult (.tuple (args [.var 10, .var 11])) .var (.tuple (args [.num 1, callA 20 (.var 10)])), .emit (args [.var 11])]
    (match desugar names templs b with
      | .ok s =>
        match runD ints templs 5 (.block b) ⟨[[]], [], []⟩, runP ints templs 5 s ⟨[[]], [], []⟩ with
        | some D, some P => decide (D.insts = [⟨1, [7], false, [(3, 1)]⟩] ∧ D.log = [.emit [12]] ∧
            P.store.map (·.2) = [⟨1, [7], false, [(3, 5)]⟩] ∧ P.log = [.emit [16]])
        | _, _ => false
      | .error _ => false) = true ∧
    parOkS b = true ∧ wfS b = true ∧ srcS (loops names b) b = true ∧ (sitesS names b).Nodup := by decide +kernel

/-- A variable of the user with the name of the counter: `while (i < 2) { var anon_var = 0; x = A(7)(i); i = i + 1; }`
runs, the template without sugar makes the second instance at the place of the first. -/
theorem C75_violated_name :
    let b := chain [.init (chain [.decl 10 .nil, .assign 10 .var (.num 0)]),
      .init (chain [.decl 11 .nil, .assign 11 .var (.num 0)]),
      .while 5 (.op false 1 (args [.var 11, .num 2])) (.block (chain [
        .init (chain [.decl 1005 .nil, .assign 1005 .var (.num 0)]), .assign 10 .var (callA 20 (.var 11)),
        .assign 11 .var (.op false 0 (args [.var 11, .num 1]))]))]
    (match desugar names templs b with
      | .ok s =>
        match runD ints templs 5 (.block b) ⟨[[]], [], []⟩, runP ints templs 5 s ⟨[[]], [], []⟩ with
        | some D, none => decide (D.insts.length = 2)
        | _, _ => false
      | .error _ => false) = true := by decide +kernel

end Verif.Props.Anon
