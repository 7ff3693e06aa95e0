import Verif.KnownMain

/-!
C73: a template that passes the known/unknown analysis never fails during constraint generation with a
constraint under an unknown condition.
-/

set_option linter.unusedVariables false

namespace Verif.Props.Known

open Verif.Algebra Verif.Exec Verif.Filters Verif.Known

/-- A sequence of statements. -/
def list : List LStmt → LStmt
  | [] => .nil
  | s :: rest => .cons s (list rest)

/-- `var x = e;` -/
def var (x : Nat) (e : LExpr) : LStmt := .init 0 (list [.decl 0 x, .assign 0 x e])

/-- The state in which a template with the given parameters and inputs starts. -/
def begin (ps : List (Nat × Int)) (inputs : List Nat) : St :=
  { start inputs with env := [ps.map fun x => (x.1, .number x.2)] }

/-- The state before the body of a template with parameters `ps` is known to the analysis. -/
theorem start_known (ps : List (Nat × Int)) :
    RelK (ps.map (·.1)) none [(ps.map (·.1)).map fun x => (x, (.known, true))]
      [ps.map fun x => (x.1, (.number x.2 : V))] := by
  have key : ∀ (ps : List (Nat × Int)) (x : Nat),
      (blockGet ((ps.map (·.1)).map fun x => (x, (KTag.known, true))) x = none ∧
        blockGet (ps.map fun x => (x.1, (.number x.2 : V))) x = none) ∨
      (x ∈ ps.map (·.1) ∧ blockGet ((ps.map (·.1)).map fun x => (x, (KTag.known, true))) x = some (.known, true) ∧
        ∃ n, blockGet (ps.map fun x => (x.1, (.number x.2 : V))) x = some (.number n)) := by
    intro ps x
    induction ps with
    | nil => exact .inl ⟨rfl, rfl⟩
    | cons e rest ih =>
      obtain ⟨y, n⟩ := e
      by_cases hy : y = x
      · subst hy
        exact .inr ⟨by simp, by simp [blockGet], n, by simp [blockGet]⟩
      · simp only [List.map_cons, blockGet, if_neg hy, List.mem_cons]
        rcases ih with h | ⟨h1, h2⟩
        · exact .inl h
        · exact .inr ⟨.inr h1, h2⟩
  refine ⟨⟨rfl, fun i x => ?_⟩, ?_, ?_, fun x hx => by cases hx⟩
  · cases i with
    | zero =>
      simp only [cell_zero]
      rcases key ps x with ⟨h1, h2⟩ | ⟨_, h1, n, h2⟩ <;> rw [h1, h2] <;> rfl
    | succ i => simp
  · intro i x t a v h1 h2 _
    right
    cases i with
    | zero =>
      simp only [cell_zero] at h1 h2
      rcases key ps x with ⟨g1, g2⟩ | ⟨_, g1, n, g2⟩
      · rw [g1] at h1; cases h1
      · rw [g2] at h2
        injection h2 with h2
        exact ⟨n, h2.symm⟩
    | succ i => simp at h1
  · intro i x t h1
    cases i with
    | zero =>
      simp only [cell_zero] at h1
      rcases key ps x with ⟨g1, g2⟩ | ⟨g, _⟩
      · rw [g1] at h1; cases h1
      · exact g
    | succ i => simp at h1

/-- C73, what holds: with declarations initialised without reading the declared variable, parameters
never assigned, and the variables assigned in a branch or loop body assigned or declared in it outside
of inner loops, a template the analysis accepts does not fail with a constraint under an unknown
condition, whatever the values of the parameters, the inputs and the number of iterations. -/
theorem C73_partial {p : Nat} (hp : 0 < p) (s : LStmt) (hs : s.erase.Scoped true)
    (hi : pending s none = some none) (ht : Tracked s) (ps : List (Nat × Int))
    (hpar : ∀ x ∈ assigned s, x ∉ ps.map (·.1)) (ha : accepted (ps.map (·.1)) s = .ok true)
    (inputs : List Nat) (fuel : Nat) :
    exec fuel p s.erase (begin ps inputs) ≠ .error .constraintInUnknown := by
  unfold accepted at ha
  split at ha
  · cases ha
  · rename_i x hx
    injection ha with ha
    exact (sound hp s true none none hs hi ht hpar _ x (begin ps inputs) hx (List.isEmpty_iff.1 ha) rfl
      (start_known ps)).1

/-- The loop over the body of a `while` ends after at most one pass more than there are names assigned
or declared in it. -/
theorem C73_terminates (s : LStmt) (hs : s.erase.Scoped true) (params : List Nat) :
    accepted params s ≠ .error .outOfFuel := by
  intro h
  unfold accepted at h
  split at h
  · rename_i e he
    injection h with h
    exact analyze_total s true hs _ (by rw [he, h])
  · cases h

/-- A variable whose analysed state is "known" holds a number wherever the template ends. -/
theorem C73_values {p : Nat} (hp : 0 < p) (s : LStmt) (hs : s.erase.Scoped true)
    (hi : pending s none = some none) (ht : Tracked s) (ps : List (Nat × Int))
    (hpar : ∀ x ∈ assigned s, x ∉ ps.map (·.1)) {x : Exit}
    (ha : analyze s [(ps.map (·.1)).map fun x => (x, (.known, true))] = .ok x) (hr : x.reports = [])
    (inputs : List Nat) (fuel : Nat) {st : St} {r : Option V}
    (h : exec fuel p s.erase (begin ps inputs) = .ok (st, r)) {y : Nat} {a : Bool}
    (hy : envGet x.env y = some (.known, a)) : ∃ n, envGet st.env y = some (.number n) := by
  have hR := (sound hp s true none none hs hi ht hpar _ x (begin ps inputs) ha hr rfl
    (start_known ps)).2 st r h
  obtain ⟨i, h1, h2⟩ := envGet_some hy
  obtain ⟨v, hv⟩ : ∃ v, cell st.env i y = some v := by
    have := hR.shape.2 i y
    rw [h2] at this
    exact Option.isSome_iff_exists.1 this.symm
  rcases hR.num i y .known a v h2 hv (.inl rfl) with ⟨_, g⟩ | ⟨n, rfl⟩
  · cases g
  · exact ⟨n, by rw [envGet_cell, ← hR.shape.place, h1]; exact hv⟩

/-! ### A template meeting the hypotheses

```
template T(n) { signal input in; signal output out;
  var x = 0; var y = 0;
  for (var i = 0; i < n; i++) { if (i == 1) { in === x; } x = x + i; y = in; }
  if (y == 0) { x = 5; }
  if (n == 3) { out <== in; }
}
``` -/

def sample : LStmt := .block 0 (list [
  var 1 (.num 0 0), var 2 (.num 0 0),
  .block 0 (list [var 3 (.num 0 0), .while 0 (.bin 0 .lesser (.var 0 3) (.var 0 0)) (.block 0 (list [
    .ifThen 0 (.bin 0 .eq (.var 0 3) (.num 0 1)) (.check 0 (.sig 0 0) (.var 0 1)),
    .assign 0 1 (.bin 0 .add (.var 0 1) (.var 0 3)),
    .assign 0 2 (.sig 0 0),
    .assign 0 3 (.bin 0 .add (.var 0 3) (.num 0 1))]))]),
  .ifThen 0 (.bin 0 .eq (.var 0 2) (.num 0 0)) (.assign 0 1 (.num 0 5)),
  .ifThen 0 (.bin 0 .eq (.var 0 0) (.num 0 3)) (.cassign 0 1 (.sig 0 0))])

example : accepted [0] sample = .ok true := by decide +kernel

theorem sample_scoped : sample.erase.Scoped true := by
  simp [sample, list, var, LStmt.erase, Stmt.Scoped]

example (n : Int) (fuel : Nat) : exec fuel 101 sample.erase (begin [(0, n)] [0]) ≠ .error .constraintInUnknown :=
  C73_partial (p := 101) (by decide) sample sample_scoped (by decide +kernel) (by decide +kernel) [(0, n)]
    (by intro x hx; have : x ∈ [1, 2, 3, 1, 2, 3, 1] := hx; simp at this; simp; omega)
    (by decide +kernel : accepted [0] sample = .ok true) [0] fuel

example : (match exec 10 101 sample.erase (begin [(0, 3)] [0]) with
    | .ok (st, _) => decide (st.cons.length = 2)
    | _ => false) = true := by decide +kernel

example : accepted [0] sample ≠ .error .outOfFuel := C73_terminates sample sample_scoped [0]

/-- A template it refuses: `var x = in; if (x == 0) { in === 0; }`. -/
example : accepted [] (.block 0 (list [var 1 (.sig 0 0),
    .ifThen 0 (.bin 0 .eq (.var 0 1) (.num 0 0)) (.check 0 (.sig 0 0) (.num 0 0))])) = .ok false := by
  decide +kernel

/-- `var x = 0; x = x + 1;` at the top level, the block left open. -/
example : (match analyze (list [var 1 (.num 0 0), .assign 0 1 (.bin 0 .add (.var 0 1) (.num 0 1))]) [[]],
      exec 5 101 (list [var 1 (.num 0 0), .assign 0 1 (.bin 0 .add (.var 0 1) (.num 0 1))]).erase (begin [] [0]) with
    | .ok x, .ok (st, _) => decide (envGet x.env 1 = some (.known, false) ∧ envGet st.env 1 = some (.number 1))
    | _, _ => false) = true := by decide +kernel

/-! ### The exceptions are real -/

/-- C73 fails: the names assigned in an inner loop are not seen by the outer one.
`var x = 0; for (var i = 0; i < 2; i++) { if (x == 0) { in === 0; } for (var j = 0; j < 3; j++) { x = in; } }` -/
def nested : LStmt := .block 0 (list [
  var 1 (.num 0 0),
  .block 0 (list [var 2 (.num 0 0), .while 0 (.bin 0 .lesser (.var 0 2) (.num 0 2)) (.block 0 (list [
    .ifThen 0 (.bin 0 .eq (.var 0 1) (.num 0 0)) (.check 0 (.sig 0 0) (.num 0 0)),
    .block 0 (list [var 3 (.num 0 0), .while 0 (.bin 0 .lesser (.var 0 3) (.num 0 3)) (.block 0 (list [
      .assign 0 1 (.sig 0 0),
      .assign 0 3 (.bin 0 .add (.var 0 3) (.num 0 1))]))]),
    .assign 0 2 (.bin 0 .add (.var 0 2) (.num 0 1))]))])])

theorem C73_nested_violated : ∃ (s : LStmt) (inputs : List Nat) (fuel : Nat),
    accepted [] s = .ok true ∧ pending s none = some none ∧ s.erase.Scoped true ∧
    exec fuel 101 s.erase (begin [] inputs) = .error .constraintInUnknown := by
  refine ⟨nested, [0], 10, by decide +kernel, by decide +kernel,
    by simp [nested, list, var, LStmt.erase, Stmt.Scoped], ?_⟩
  have : (match exec 10 101 nested.erase (begin [] [0]) with
    | .error e => decide (e = .constraintInUnknown)
    | _ => false) = true := by decide +kernel
  split at this
  · rename_i e he
    rw [he, of_decide_eq_true this]
  · cases this

/-- The same for a loop under an unknown condition:
`var x = 0; if (in == 0) { for (var i = 0; i < 3; i++) { x = 1; } } if (x == 1) { in === 0; }` -/
def hidden : LStmt := .block 0 (list [
  var 1 (.num 0 0),
  .ifThen 0 (.bin 0 .eq (.sig 0 0) (.num 0 0)) (.block 0 (list [
    .block 0 (list [var 2 (.num 0 0), .while 0 (.bin 0 .lesser (.var 0 2) (.num 0 3)) (.block 0 (list [
      .assign 0 1 (.num 0 1),
      .assign 0 2 (.bin 0 .add (.var 0 2) (.num 0 1))]))])])),
  .ifThen 0 (.bin 0 .eq (.var 0 1) (.num 0 1)) (.check 0 (.sig 0 0) (.num 0 0))])

theorem C73_hidden_violated : ∃ (s : LStmt) (inputs : List Nat) (fuel : Nat),
    accepted [] s = .ok true ∧ pending s none = some none ∧ s.erase.Scoped true ∧
    exec fuel 101 s.erase (begin [] inputs) = .error .constraintInUnknown := by
  refine ⟨hidden, [0], 10, by decide +kernel, by decide +kernel,
    by simp [hidden, list, var, LStmt.erase, Stmt.Scoped], ?_⟩
  have : (match exec 10 101 hidden.erase (begin [] [0]) with
    | .error e => decide (e = .constraintInUnknown)
    | _ => false) = true := by decide +kernel
  split at this
  · rename_i e he
    rw [he, of_decide_eq_true this]
  · cases this

/-- Parameters count as known even after an assignment: `n = in; if (n == 1) { in === 0; }`. -/
def param : LStmt := .block 0 (list [
  .assign 0 0 (.sig 0 0),
  .ifThen 0 (.bin 0 .eq (.var 0 0) (.num 0 1)) (.check 0 (.sig 0 0) (.num 0 0))])

theorem C73_param_violated : ∃ (s : LStmt) (ps : List (Nat × Int)) (inputs : List Nat) (fuel : Nat),
    accepted (ps.map (·.1)) s = .ok true ∧ pending s none = some none ∧ Tracked s ∧ s.erase.Scoped true ∧
    exec fuel 101 s.erase (begin ps inputs) = .error .constraintInUnknown := by
  refine ⟨param, [(0, 1)], [0], 10, by decide +kernel, by decide +kernel, by decide +kernel,
    by simp [param, list, LStmt.erase, Stmt.Scoped], ?_⟩
  have : (match exec 10 101 param.erase (begin [(0, 1)] [0]) with
    | .error e => decide (e = .constraintInUnknown)
    | _ => false) = true := by decide +kernel
  split at this
  · rename_i e he
    rw [he, of_decide_eq_true this]
  · cases this

/-- A variable initialised with itself: `var x = x; if (x == 1) { in === 0; }`. -/
def self : LStmt := .block 0 (list [
  var 1 (.var 0 1),
  .ifThen 0 (.bin 0 .eq (.var 0 1) (.num 0 1)) (.check 0 (.sig 0 0) (.num 0 0))])

theorem C73_self_violated : ∃ (s : LStmt) (inputs : List Nat) (fuel : Nat),
    accepted [] s = .ok true ∧ Tracked s ∧ s.erase.Scoped true ∧
    exec fuel 101 s.erase (begin [] inputs) = .error .constraintInUnknown := by
  refine ⟨self, [0], 10, by decide +kernel, by decide +kernel,
    by simp [self, list, var, LStmt.erase, Stmt.Scoped], ?_⟩
  have : (match exec 10 101 self.erase (begin [] [0]) with
    | .error e => decide (e = .constraintInUnknown)
    | _ => false) = true := by decide +kernel
  split at this
  · rename_i e he
    rw [he, of_decide_eq_true this]
  · cases this

end Verif.Props.Known
