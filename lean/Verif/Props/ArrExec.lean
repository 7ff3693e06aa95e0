import Verif.ArrExecStatic
import Verif.Props.Exec
import Verif.Props.Memory

/-!
Property C76: the symbolic execution on arrays (`constraint_generation/src/execute.rs`).

Concrete runs: signal values `w` (`w 0 = 1` for the constant key); `run` decides every index and every
branch.
-/

namespace Verif.Props.ArrExec

open Verif.ModArith Verif.Algebra Verif.ArrExec Verif.Memory
open Verif.Exec (rho V envGet envGet_rel)
open Verif.Props.Exec (Signals vals vals_signals)

variable {p : Nat} {w : Nat → Int}

theorem start_rel : RelE p w start.env [[]] := .cons .nil .nil

/-- C76 (missing: executions in which the code replaces an array by a single unknown cell, see
`C76_violated`; loops with unknown condition, see C45): for all signal values, the constraints
generated for a template body over arrays hold exactly if every `<==` and `===` met in the concrete
execution compares arrays equal cell by cell. -/
theorem C76_constraints_partial (hp : 1 < p) (hw : Signals p w) {body : AStmt} (hl : body.Lits p)
    {fuel cfuel : Nat} {st : ASt} (h : exec false fuel p body start = .ok st)
    (hlost : exec true fuel p body start ≠ .error .lost) {c : CEnv} {tr : List (Int × Int)}
    (hc : run cfuel p w body [[]] = .ok (c, tr)) :
    (∀ k ∈ st.cons, k.Holds (rho p w)) ↔ ∀ q ∈ tr, q.1 = q.2 := by
  have h' : exec true fuel p body start = .ok st := by
    rcases exec_strict fuel p body start with g | g
    · exact absurd g hlost
    · rw [g, h]
  obtain ⟨new, e1, e2⟩ := (exec_step hp hw.2 hw.1 fuel cfuel body hl _ _ _ _ _ start_rel h' hc).cons
  have : st.cons = new := by rw [e1]; rfl
  rw [this]
  exact e2

/-- C76, the cells of the variables: the arrays have the dimensions of the concrete ones, and every
cell the executor holds a value for has that value in the concrete execution; in particular a cell
considered to be the number `n` is `n`. -/
theorem C76_cells_partial (hp : 1 < p) (hw : Signals p w) {body : AStmt} (hl : body.Lits p)
    {fuel cfuel : Nat} {st : ASt} (h : exec false fuel p body start = .ok st)
    (hlost : exec true fuel p body start ≠ .error .lost) {c : CEnv} {tr : List (Int × Int)}
    (hc : run cfuel p w body [[]] = .ok (c, tr)) {x : Nat} {s : Slice V}
    (hx : envGet st.env x = some s) :
    ∃ t, envGet c x = some t ∧ s.route = t.route ∧ s.values.length = t.values.length ∧
      ∀ (i : Nat) (a : V), s.values[i]? = some a → ∃ u : Int, t.values[i]? = some u ∧ (∀ n, a = .number n → u = n) ∧
        (a ≠ .nonQuadratic → a.value (rho p w) = some (u : ZMod p)) := by
  have h' : exec true fuel p body start = .ok st := by
    rcases exec_strict fuel p body start with g | g
    · exact absurd g hlost
    · rw [g, h]
  have hE := (exec_step hp hw.2 hw.1 fuel cfuel body hl _ _ _ _ _ start_rel h' hc).env
  rcases envGet_rel hE x with ⟨g1, _⟩ | ⟨s', t, g1, g2, g3⟩
  · rw [hx] at g1; cases g1
  · rw [hx] at g1
    cases g1
    refine ⟨t, g2, g3.rs.1, g3.rs.2.length_eq, fun i a hi => ?_⟩
    rcases forall₂_getElem? g3.rs.2 i with ⟨f1, _⟩ | ⟨a', u, f1, f2, f3⟩
    · rw [hi] at f1; cases f1
    · rw [hi] at f1
      cases f1
      exact ⟨u, f2, fun n hn => (f3.number n hn).symm, fun hne => f3.value.resolve_left hne⟩

/-- C76 for programs in which every indexed read goes down to a single cell and inline conditionals
choose between single cells (`Γ x` is the number of dimensions of every declaration of `x`): nothing
is lost. Indices and conditions may be unknown, whole arrays may be copied. -/
theorem C76_cellwise (hp : 1 < p) (hw : Signals p w) {body : AStmt} (hl : body.Lits p)
    {Γ : Nat → Nat} (hΓ : body.Cellwise Γ) {fuel cfuel : Nat} {st : ASt}
    (h : exec false fuel p body start = .ok st) {c : CEnv} {tr : List (Int × Int)}
    (hc : run cfuel p w body [[]] = .ok (c, tr)) :
    (∀ k ∈ st.cons, k.Holds (rho p w)) ↔ ∀ q ∈ tr, q.1 = q.2 := by
  refine C76_constraints_partial hp hw hl h ?_ hc
  rw [exec_cellwise fuel p body hΓ start (by intro b hb; simp [start] at hb; subst hb; simp), h]
  simp

/-! ### Array literals -/

theorem fillRows_exact {α : Type} {ds : List Nat} {N : Nat} (rows : List (Slice α)) :
    ∀ (s : Slice α) (row : Nat), Shaped s → s.route = N :: ds →
      (∀ r ∈ rows, Shaped r ∧ r.route = ds) → row + rows.length ≤ N →
      ∃ t, fillRows s row rows = .ok t ∧ Shaped t ∧ t.route = N :: ds ∧
        (∀ i r, rows[i]? = some r → accessValues t [row + i] = .ok (.ok r)) ∧
        ∀ k < row, accessValues t [k] = accessValues s [k] := by
  induction rows with
  | nil => intro s row hs hr _ _; exact ⟨s, rfl, hs, hr, by simp, fun _ _ => rfl⟩
  | cons r rows ih =>
    intro s row hs hr hrows hlen
    obtain ⟨g1, g2⟩ := hrows r (.head _)
    simp only [List.length_cons] at hlen
    have hv : Valid [row] (s.route.take [row].length) := by
      rw [hr]
      exact .cons (by show row < N; omega) .nil
    have hd : r.route = s.route.drop [row].length := by rw [hr]; exact g2
    obtain ⟨s', h1, h2, h3, h4, _⟩ := Props.Memory.C41_read_back hs g1 hv hd false
    have hs' : Shaped s' := by unfold Shaped at *; rw [h2, h3, hs]
    obtain ⟨t, f1, f2, f3, f4, f5⟩ := ih s' (row + 1) hs' (h2.trans hr)
      (fun x hx => hrows x (.tail _ hx)) (by omega)
    refine ⟨t, ?_, f2, f3, ?_, ?_⟩
    · simp only [fillRows, insertVoid, h1, f1]
    · intro i x hx
      cases i with
      | zero =>
        cases hx
        rw [Nat.add_zero, f5 row (by omega), h4]
      | succ i =>
        rw [← f4 i x (by simpa using hx)]
        congr 2
        omega
    · intro k hk
      rw [f5 k (by omega)]
      refine Props.Memory.C41_frame hs g1 hv hd false h1 ?_ ?_
      · intro hp
        have := hp.eq_of_length rfl
        simp at this; omega
      · intro hp
        have := hp.eq_of_length rfl
        simp at this; omega

theorem maxRoutes_same {α : Type} {ds : List Nat} (rows : List (Slice α)) (h : ∀ r ∈ rows, r.route = ds) :
    maxRoutes ds rows = .ok ds := by
  have hm : ∀ l : List Nat, maxRoute l l = .ok l := by
    intro l
    induction l with
    | nil => rfl
    | cons d l ih => simp [maxRoute, ih, Except.map]
  induction rows with
  | nil => rfl
  | cons r rows ih =>
    simp only [maxRoutes, h r (.head _), hm]
    exact ih fun x hx => h x (.tail _ hx)

/-- C76, inline arrays: `[r0, .., rk]` of elements of the same dimensions has them as its rows, in
order. -/
theorem C76_inline {α : Type} (zero : α) {rows : List (Slice α)} {ds : List Nat} (hne : rows ≠ [])
    (h : ∀ r ∈ rows, Shaped r ∧ r.route = ds) :
    ∃ t, inlineArray zero rows = .ok t ∧ t.route = rows.length :: ds ∧
      ∀ i r, rows[i]? = some r → accessValues t [i] = .ok (.ok r) := by
  cases rows with
  | nil => exact absurd rfl hne
  | cons r rows =>
    simp only [inlineArray]
    rw [(h r (.head _)).2, maxRoutes_same rows fun x hx => (h x (.tail _ hx)).2]
    obtain ⟨t, h1, _, h3, h4, _⟩ := fillRows_exact (N := rows.length + 1) (r :: rows)
      (newWithRoute ((rows.length + 1) :: ds) zero) 0 (newWithRoute_shaped _ _) rfl h (by simp)
    exact ⟨t, h1, h3, fun i x hx => by simpa using h4 i x hx⟩

example : ∃ t, inlineArray 0 [(⟨[2], [1, 2]⟩ : Slice Nat), ⟨[2], [3, 4]⟩] = .ok t ∧ t.route = [2, 2] ∧
    accessValues t [1] = .ok (.ok ⟨[2], [3, 4]⟩) := by
  obtain ⟨t, h1, h2, h3⟩ := C76_inline 0 (rows := [(⟨[2], [1, 2]⟩ : Slice Nat), ⟨[2], [3, 4]⟩]) (ds := [2])
    (by simp) (by simp [Shaped])
  exact ⟨t, h1, h2, h3 1 _ rfl⟩

/-- C76, uniform arrays: `n` copies of the element. -/
theorem C76_uniform {α : Type} (dflt : α) (n : Nat) {s : Slice α} (hs : Shaped s) :
    ∃ t, uniformArray dflt n s = .ok t ∧ t.route = n :: s.route ∧
      ∀ i < n, accessValues t [i] = .ok (.ok s) := by
  obtain ⟨t, h1, _, h3, h4, _⟩ := fillRows_exact (N := n) (ds := s.route) (List.replicate n s)
    (newWithRoute (n :: s.route) dflt) 0 (newWithRoute_shaped _ _) rfl
    (fun r hr => by rw [List.eq_of_mem_replicate hr]; exact ⟨hs, rfl⟩) (by simp)
  exact ⟨t, h1, h3, fun i hi => by simpa using h4 i s (by simp [hi])⟩

example : ∃ t, uniformArray 0 3 (⟨[2], [1, 2]⟩ : Slice Nat) = .ok t ∧ t.route = [3, 2] ∧
    accessValues t [2] = .ok (.ok ⟨[2], [1, 2]⟩) := by
  obtain ⟨t, h1, h2, h3⟩ := C76_uniform 0 3 (s := (⟨[2], [1, 2]⟩ : Slice Nat)) (by decide)
  exact ⟨t, h1, h2, h3 2 (by decide)⟩

/-! ### Bounds -/

theorem insertVoid_valid {α : Type} {s v s' : Slice α} {is : List Nat} (h : insertVoid s is v = .ok s') :
    Valid is (s.route.take is.length) := by
  by_contra hv
  have hc : checkCorrectDims s is v false = .error .outOfBounds := by
    unfold checkCorrectDims
    split
    · rfl
    · cases hd : dropAccess is s.route with
      | error e => rw [(dropAccess_error _ _ _ hd).1]
      | ok rest => exact absurd (dropAccess_ok _ _ _ hd).1 hv
  simp only [insertVoid, insertValues, insertRec, hc] at h
  cases h

/-- C76, bounds: an assignment `x[i0]..[ik] = e` at known positions is accepted only if every position
is inside the array (and there are no more positions than dimensions). -/
theorem C76_bounds {fuel : Nat} {p : Int} {x : Nat} {is e : AExp} {st st' : ASt} {js : List (Slice V)}
    {pos : List Nat} {s : Slice V} (hi : eval false p st.env is = .ok js)
    (hp : (singles js).bind position = .ok (some pos)) (hs : envGet st.env x = some s)
    (h : exec false fuel p (.assign x is e) st = .ok st') :
    pos.length ≤ s.route.length ∧ ∀ (k : Nat) (i : Nat), pos[k]? = some i →
      ∃ d, s.route[k]? = some d ∧ i < d := by
  have hv : Valid pos (s.route.take pos.length) := by
    simp only [exec, hi] at h
    cases hx : singles js with
    | error e => rw [hx] at hp; cases hp
    | ok vs =>
      rw [hx] at hp
      simp only [Except.bind] at hp
      simp only [hx, hp] at h
      split at h
      · cases h
      · split at h
        · cases h
        · simp only [hs] at h
          split at h
          · cases h
          · rename_i hw
            exact insertVoid_valid hw
  refine ⟨hv.take_length, fun k i hk => ?_⟩
  have hkl : k < pos.length := (List.getElem?_eq_some_iff.1 hk).1
  rcases forall₂_getElem? hv k with ⟨g, _⟩ | ⟨a, b, g1, g2, g3⟩
  · rw [hk] at g; cases g
  · rw [hk] at g1
    cases g1
    rw [List.getElem?_take, if_pos hkl] at g2
    exact ⟨b, g2, g3⟩

/-! ### Programs used in the examples -/

def seqs (l : List AStmt) : AStmt := l.foldr .seq .skip

def list (l : List AExp) : AExp := l.foldr .cons .nil

/-- A declaration with the initialisation added by the parser (ast_shortcuts.rs). -/
def zeros (x : Nat) (ds : List Int) : AStmt :=
  .seq (.decl x (list (ds.map .num))) (.assign x .nil (ds.foldr (fun d e => .uni e (.num d)) (.num 0)))

/-- Signal 1 is an input `in`, signals 2 and 3 the array `out[2]`.
`var m[2][2] = [[1, 2], [3, 4]]; var r[2]; if (in) { r[0] = m[in][1]; } r[1] = m[1][0] + m[0][1];
r[0] = 7 + m[0][0]; out <== [in * r[0], r[1]];` -/
def sample : AStmt := seqs [
  zeros 1 [2, 2], .assign 1 .nil (.arr (list [.arr (list [.num 1, .num 2]), .arr (list [.num 3, .num 4])])),
  zeros 2 [2],
  .ite (.sig 1 [] .nil) (.assign 2 (list [.num 0]) (.var 1 (list [.sig 1 [] .nil, .num 1]))) .skip,
  .assign 2 (list [.num 1]) (.bin .add (.var 1 (list [.num 1, .num 0])) (.var 1 (list [.num 0, .num 1]))),
  .assign 2 (list [.num 0]) (.bin .add (.num 7) (.var 1 (list [.num 0, .num 0]))),
  .cassign 2 [2] .nil (.arr (list [.bin .mul (.sig 1 [] .nil) (.var 2 (list [.num 0])), .var 2 (list [.num 1])]))]

theorem sample_lits : sample.Lits 101 := by
  simp [sample, seqs, zeros, list, AStmt.Lits, AExp.Lits]

theorem sample_cellwise : sample.Cellwise (fun x => if x = 1 then 2 else 1) := by
  simp [sample, seqs, zeros, list, AStmt.Cellwise, AExp.Cellwise, nd.len]

/-- Executions succeed and check the given condition. -/
def okAnd (r : Ax ASt) (f : ASt → Bool) : Bool :=
  match r with
  | .ok st => f st
  | _ => false

theorem okAnd_spec {r : Ax ASt} {f : ASt → Bool} (h : okAnd r f = true) : ∃ st, r = .ok st ∧ f st = true := by
  unfold okAnd at h
  split at h
  · exact ⟨_, rfl, h⟩
  · cases h

def runs (r : Ax (CEnv × List (Int × Int))) (tr : List (Int × Int)) : Bool :=
  match r with
  | .ok (_, t) => decide (t = tr)
  | _ => false

theorem runs_spec {r : Ax (CEnv × List (Int × Int))} {tr : List (Int × Int)} (h : runs r tr = true) :
    ∃ c, r = .ok (c, tr) := by
  unfold runs at h
  split at h
  · rename_i c t
    simp only [decide_eq_true_eq] at h
    subst h
    exact ⟨c, rfl⟩
  · cases h

/-- The sample is accepted with two constraints; `r` is known to be `[8, 5]`. -/
example : okAnd (exec false 10 101 sample start) (fun st => decide (st.cons.length = 2) &&
    decide (envGet st.env 2 = some ⟨[2], [.number 8, .number 5]⟩)) = true := by decide +kernel

/-- With `in = 1`, `out = [8, 5]` is the only solution. -/
example : runs (run 10 101 (vals [1, 1, 8, 5]) sample [[]]) [(8, 8), (5, 5)] = true ∧
    runs (run 10 101 (vals [1, 1, 8, 6]) sample [[]]) [(8, 8), (6, 5)] = true := by decide +kernel

example : ∃ st, exec false 10 101 sample start = .ok st ∧
    (∀ k ∈ st.cons, k.Holds (rho 101 (vals [1, 1, 8, 5]))) ∧
    ¬ ∀ k ∈ st.cons, k.Holds (rho 101 (vals [1, 1, 8, 6])) := by
  obtain ⟨st, h, _⟩ := okAnd_spec (r := exec false 10 101 sample start) (f := fun _ => true) (by decide +kernel)
  obtain ⟨c1, h1⟩ := runs_spec (r := run 10 101 (vals [1, 1, 8, 5]) sample [[]]) (tr := [(8, 8), (5, 5)])
    (by decide +kernel)
  obtain ⟨c2, h2⟩ := runs_spec (r := run 10 101 (vals [1, 1, 8, 6]) sample [[]]) (tr := [(8, 8), (6, 5)])
    (by decide +kernel)
  refine ⟨st, h, ?_, ?_⟩
  · exact (C76_cellwise (p := 101) (by decide) (vals_signals (by decide) (by decide)) sample_lits
      sample_cellwise h h1).2 (by decide)
  · intro hk
    have := (C76_cellwise (p := 101) (by decide) (vals_signals (by decide) (by decide)) sample_lits
      sample_cellwise h h2).1 hk
    exact absurd (this (6, 5) (by decide)) (by decide)

/-- `x[1][2]` of a 2×2 array is refused, `x[1][1]` is not. -/
example : (∃ st', exec false 10 101 (.assign 1 (list [.num 1, .num 1]) (.num 5))
      ⟨[[(1, ⟨[2, 2], [.number 1, .number 2, .number 3, .number 4]⟩)]], false, []⟩ = .ok st') ∧
    ∀ st', exec false 10 101 (.assign 1 (list [.num 1, .num 2]) (.num 5))
      ⟨[[(1, ⟨[2, 2], [.number 1, .number 2, .number 3, .number 4]⟩)]], false, []⟩ ≠ .ok st' := by
  refine ⟨?_, fun st' h => ?_⟩
  · obtain ⟨st, h, _⟩ := okAnd_spec (f := fun _ => true) (r := exec false 10 101
      (.assign 1 (list [.num 1, .num 1]) (.num 5))
      ⟨[[(1, ⟨[2, 2], [.number 1, .number 2, .number 3, .number 4]⟩)]], false, []⟩) (by decide +kernel)
    exact ⟨st, h⟩
  · obtain ⟨_, hb⟩ := C76_bounds (pos := [1, 2]) (js := [⟨[], [.number 1]⟩, ⟨[], [.number 2]⟩]) rfl
      (by decide +kernel) rfl h
    obtain ⟨d, h1, h2⟩ := hb 1 2 rfl
    simp at h1
    omega

/-- Rows read at known positions are not lost either (the hypothesis of `C76_constraints_partial` and
`C76_cells_partial` on a program that is not cellwise): `var m[2][2] = ..; var r[2]; r = m[1];
out <== r;`. -/
def rows : AStmt := seqs [
  zeros 1 [2, 2], .assign 1 .nil (.arr (list [.arr (list [.num 1, .num 2]), .arr (list [.num 3, .num 4])])),
  zeros 2 [2], .assign 2 .nil (.var 1 (list [.num 1])), .cassign 2 [2] .nil (.var 2 .nil)]

example : okAnd (exec false 10 101 rows start) (fun st => decide (st.cons.length = 2)) = true ∧
    okAnd (exec true 10 101 rows start) (fun st => decide (st.cons.length = 2)) = true ∧
    runs (run 10 101 (vals [1, 1, 3, 4]) rows [[]]) [(3, 3), (4, 4)] = true := by decide +kernel

/-! ### Violations -/

instance (ρ : Nat → ZMod 101) (k : Constraint Nat) : Decidable (k.Holds ρ) := by
  unfold Constraint.Holds
  infer_instance

/-- `var m[2][2] = [[1, 2], [3, 4]]; var r[2]; r = m[in]; out <== r[1];` (signal 2 is `out`). -/
def rowUnknown : AStmt := seqs [
  zeros 1 [2, 2], .assign 1 .nil (.arr (list [.arr (list [.num 1, .num 2]), .arr (list [.num 3, .num 4])])),
  zeros 2 [2], .assign 2 .nil (.var 1 (list [.sig 1 [] .nil])),
  .cassign 2 [] .nil (.var 2 (list [.num 1]))]

/-- C76 fails: a row read at an unknown position is a single unknown cell, and assigning it changes
only the first cell of the target. For `rowUnknown` the compiler emits `out = 0` without any message,
while the template computes `out = m[in][1]`, which is 4 for `in = 1`: the honest witness is
rejected (and `out = 0` accepted). -/
theorem C76_violated :
    rowUnknown.Lits 101 ∧ ∃ st, exec false 10 101 rowUnknown start = .ok st ∧
    (∃ c, run 10 101 (vals [1, 1, 4]) rowUnknown [[]] = .ok (c, [(4, 4)])) ∧
    (∃ k ∈ st.cons, ¬ k.Holds (rho 101 (vals [1, 1, 4]))) ∧
    (∃ c, run 10 101 (vals [1, 1, 0]) rowUnknown [[]] = .ok (c, [(0, 4)])) ∧
    (∀ k ∈ st.cons, k.Holds (rho 101 (vals [1, 1, 0]))) := by
  refine ⟨by simp [rowUnknown, seqs, zeros, list, AStmt.Lits, AExp.Lits], ?_⟩
  obtain ⟨st, h, hf⟩ := okAnd_spec (r := exec false 10 101 rowUnknown start)
    (f := fun st => decide (∃ k ∈ st.cons, ¬ k.Holds (rho 101 (vals [1, 1, 4]))) &&
      decide (∀ k ∈ st.cons, k.Holds (rho 101 (vals [1, 1, 0])))) (by decide +kernel)
  simp only [Bool.and_eq_true, decide_eq_true_eq] at hf
  exact ⟨st, h, runs_spec (by decide +kernel), hf.1, runs_spec (by decide +kernel), hf.2⟩

/-- `var a[2] = [1, 2]; var b[2] = [3, 4]; var r[2]; r = in ? a : b; out <== r[1];` -/
def switchUnknown : AStmt := seqs [
  zeros 1 [2], .assign 1 .nil (.arr (list [.num 1, .num 2])),
  zeros 2 [2], .assign 2 .nil (.arr (list [.num 3, .num 4])),
  zeros 3 [2], .assign 3 .nil (.sw (.sig 1 [] .nil) (.var 1 .nil) (.var 2 .nil)),
  .cassign 2 [] .nil (.var 3 (list [.num 1]))]

/-- C76 fails for inline conditionals over arrays in the same way: `out = 0` instead of 2. -/
theorem C76_switch_violated :
    switchUnknown.Lits 101 ∧ ∃ st, exec false 10 101 switchUnknown start = .ok st ∧
    (∃ c, run 10 101 (vals [1, 1, 2]) switchUnknown [[]] = .ok (c, [(2, 2)])) ∧
    ∃ k ∈ st.cons, ¬ k.Holds (rho 101 (vals [1, 1, 2])) := by
  refine ⟨by simp [switchUnknown, seqs, zeros, list, AStmt.Lits, AExp.Lits], ?_⟩
  obtain ⟨st, h, hf⟩ := okAnd_spec (r := exec false 10 101 switchUnknown start)
    (f := fun st => decide (∃ k ∈ st.cons, ¬ k.Holds (rho 101 (vals [1, 1, 2])))) (by decide +kernel)
  simp only [decide_eq_true_eq] at hf
  exact ⟨st, h, runs_spec (by decide +kernel), hf⟩

/-- `var m[2][2] = [[1, 2], [3, 4]]; var r[2][2]; r = [m[in], m[0]];` -/
def inlineUnknown : AStmt := seqs [
  zeros 1 [2, 2], .assign 1 .nil (.arr (list [.arr (list [.num 1, .num 2]), .arr (list [.num 3, .num 4])])),
  zeros 2 [2, 2], .assign 2 .nil (.arr (list [.var 1 (list [.sig 1 [] .nil]), .var 1 (list [.num 0])]))]

/-- A program whose concrete execution is fine aborts the compiler: the dimensions of the inline array
are taken from the single unknown cell, the next row has one more (index out of bounds at
execute.rs:1022). -/
theorem C76_abort_violated :
    inlineUnknown.Lits 101 ∧ exec false 10 101 inlineUnknown start = .error .panic ∧
    ∃ c, run 10 101 (vals [1, 1]) inlineUnknown [[]] = .ok (c, []) := by
  refine ⟨by simp [inlineUnknown, seqs, zeros, list, AStmt.Lits, AExp.Lits], ?_, runs_spec (by decide +kernel)⟩
  have : (match exec false 10 101 inlineUnknown start with
    | .error .panic => true
    | _ => false) = true := by decide +kernel
  split at this
  · assumption
  · cases this

end Verif.Props.ArrExec
