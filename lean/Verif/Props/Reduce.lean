import Verif.ReduceLemmas
import Verif.InferSim
import Verif.Props.Types

/-!
C94: the reduction of types. In an accepted program every name is marked with what it denotes, a port is marked as a
signal if a call is assigned to its component before it in the text, and the code of the witness calculator loses
nothing but component assignments. Where the component is assigned by `?:`, or later in the text, the port is taken for
a component: the assignment to it is lost.
-/

set_option linter.unusedVariables false

namespace Verif.Props.Reduce

open Verif.Types
open Verif.Props.Types (list chain v tplA)

/-- The instances of accepted programs meet the conditions of the lemmas. -/
theorem start {P : Prog} {given : Nat → List Nat → Guess} {fuel : Nat} (hs : structured P = true)
    (ho : ∀ t ∈ P.tpls, Once t.2) (hd : ∀ t ∈ P.tpls, get P.fns t.1 = none) (hn : names P = true)
    (h : (check P given fuel).rep = []) {f : Nat} {ds : List Nat} {r : Nat} {D : Def}
    (hf : ((f, ds), r) ∈ (check P given fuel).reg) (hD : get P.tpls f = some D) (hl : ds.length = D.params.length)
    (hp : parS D.body = true) : ∃ S G sc,
      SOk S (sigNames D.body) (compNames D.body) G sc ⟨[], []⟩ D.body (reduce P D) ∧ Tab S (sigNames D.body) (compNames D.body) := by
  have hcl := check_closed hs ho h f ds r hf
  unfold BodyOk at hcl
  rw [hd _ (get_mem hD)] at hcl
  obtain ⟨S, G, hS, hok⟩ := hcl D hD
  simp only [names, Bool.and_eq_true, List.all_eq_true] at hn
  have hnd := hn.2 _ (get_mem hD)
  simp only [namesD, Bool.and_eq_true, Option.isSome_iff_exists] at hnd
  obtain ⟨_, sc', hsc⟩ := hnd
  obtain ⟨t1, t2⟩ := ok_tab hok
  have ht : Tab S (sigNames D.body) (compNames D.body) := ⟨hS, t1, t2⟩
  refine ⟨S, G, sc', redS_ok ht hok _ _ _ ⟨(fun x hx => nomatch hx), (fun x r hr => nomatch hr), ?_⟩ hsc hp
    (fun _ h => h) (fun _ h => h), ht⟩
  intro x hx
  have hx : x ∈ D.params := by simpa using hx
  refine .inr (.inr ?_)
  rw [Option.isSome_iff_ne_none]
  refine getB_dom ⟨_, List.mem_singleton.mpr rfl, ?_⟩
  simp only [dom, List.map_reverse, List.mem_reverse]
  rw [List.map_fst_zip (by omega)]
  exact hx

/-- `template M(n) { component c[n]; signal input x; signal output o; var i; while (n - i) { if (i) { c[i] = A(1); }
else { c[i] = parallel A(2); } c[i].in[0] <== x; i = i + 1; } o <== c[0].out; _ <== x; }` -/
def tplM : Def := ⟨[2], chain [.decl (.comp (some 200)) 20 (list [v 2]), .decl (.sig .input) 21 .nil,
  .decl (.sig .output) 22 .nil, .decl .var 23 .nil,
  .loop (.op (v 2) (v 23)) (chain [
    .ite (v 23) (.sub 20 (list [v 23]) .var (.call 200 (list [.num])))
      (.sub 20 (list [v 23]) .var (.par (.call 200 (list [.num])))),
    .subp 20 (list [v 23]) 10 (list [.num]) .constraint (v 21), .sub 23 .nil .var (.op (v 23) .num)]),
  .sub 22 .nil .constraint (.port 20 (list [.num]) 11 .nil), .under (v 21)]⟩

/-- `component main = M(3);` -/
def sample : Prog := ⟨[], [(200, tplA), (201, tplM)], .call 201 (list [.num])⟩

/-- For templates whose signals and components have names of their own, and names that are not both of a function and
a template; for bodies in which `parallel` does not stand before `?:`. In every instantiated template of an accepted
program the pass neither reports nor panics. A name standing alone is marked as a signal, a component or a variable
according to its declaration; a name with a port is a component, and the port is marked as a signal or as a component
without template. The code loses only component assignments, assignments to `_`, and assignments to ports. -/
theorem C94_marks_partial (P : Prog) (given : Nat → List Nat → Guess) (fuel : Nat) (hs : structured P = true)
    (ho : ∀ t ∈ P.tpls, Once t.2) (hd : ∀ t ∈ P.tpls, get P.fns t.1 = none) (hn : names P = true)
    (h : (check P given fuel).rep = []) {f : Nat} {ds : List Nat} {r : Nat} {D : Def}
    (hf : ((f, ds), r) ∈ (check P given fuel).reg) (hD : get P.tpls f = some D) (hl : ds.length = D.params.length)
    (hp : parS D.body = true) :
    (reduce P D).reps = [] ∧
    (∀ o ∈ (reduce P D).recs, o.port = none → (o.x ∈ sigNames D.body → o.red = .sig) ∧
      (o.x ∈ compNames D.body → ∃ u, o.red = .comp u) ∧
      (o.x ∉ sigNames D.body → o.x ∉ compNames D.body → o.red = .var)) ∧
    (∀ o ∈ (reduce P D).recs, o.port.isSome = true → o.x ∈ compNames D.body ∧ (o.red = .sig ∨ o.red = .comp none)) ∧
    noPorts (rm (reduce P D).st) = noPorts (strip (compNames D.body) D.body) := by
  obtain ⟨S, G, sc, hok, ht⟩ := start hs ho hd hn h hf hD hl hp
  refine ⟨hok.reps, ?_, ?_, hok.keep⟩
  · intro o ho hnone
    have := hok.fine o ho
    unfold Fine at this
    rw [hnone] at this
    rcases this with ⟨h1, h2, h3⟩ | ⟨h1, h2, h3⟩ | ⟨h1, h2, h3⟩
    · exact ⟨fun _ => h3, fun h => absurd h h2, fun h => absurd h1 h⟩
    · exact ⟨fun h => absurd h h2, fun _ => h3, fun _ h => absurd h1 h⟩
    · exact ⟨fun h => absurd h h1, fun h => absurd h h2, fun _ _ => h3⟩
  · intro o ho hsome
    have := hok.fine o ho
    unfold Fine at this
    obtain ⟨s, hs⟩ := Option.isSome_iff_exists.mp hsome
    rw [hs] at this
    exact this

example : structured sample = true ∧ (∀ t ∈ sample.tpls, Once t.2) ∧
    (∀ t ∈ sample.tpls, Verif.Types.get sample.fns t.1 = none) ∧ names sample = true ∧
    (check sample (guess sample) 5).rep = [] ∧ ((201, [0]), 0) ∈ (check sample (guess sample) 5).reg ∧
    ((200, [0]), 0) ∈ (check sample (guess sample) 5).reg ∧ [0].length = tplM.params.length ∧
    parS tplM.body = true ∧ (reduce sample tplM).recs.length = 16 := by decide +kernel

/-- If moreover every port is used in the text after an assignment of a call, possibly `parallel`, to its component
(`placed`), all ports are marked as signals, and the code loses component assignments and assignments to `_` only: the
assignments to variables, signals and ports all stay, and so do conditionals, loops, logs and assertions. -/
theorem C94_exact_partial (P : Prog) (given : Nat → List Nat → Guess) (fuel : Nat) (hs : structured P = true)
    (ho : ∀ t ∈ P.tpls, Once t.2) (hd : ∀ t ∈ P.tpls, get P.fns t.1 = none) (hn : names P = true)
    (h : (check P given fuel).rep = []) {f : Nat} {ds : List Nat} {r : Nat} {D : Def}
    (hf : ((f, ds), r) ∈ (check P given fuel).reg) (hD : get P.tpls f = some D) (hl : ds.length = D.params.length)
    (hp : parS D.body = true) (hpl : (placed D.body []).isSome = true) :
    (∀ o ∈ (reduce P D).recs, o.port.isSome = true → o.red = .sig) ∧
    rm (reduce P D).st = strip (compNames D.body) D.body := by
  obtain ⟨S, G, sc, hok, ht⟩ := start hs ho hd hn h hf hD hl hp
  obtain ⟨L, hL⟩ := Option.isSome_iff_exists.mp hpl
  exact (hok.ports [] L (fun x hx => nomatch hx) hL).2

example : (placed tplM.body []).isSome = true ∧ (placed tplA.body []).isSome = true ∧
    (reduce sample tplM).recs.countP (fun o => o.port.isSome) = 2 ∧
    strip (compNames tplM.body) tplM.body = chain [.skip, .skip, .skip, .decl .var 23 .nil,
      .loop (.op (v 2) (v 23)) (chain [.ite (v 23) .skip .skip,
        .subp 20 (list [v 23]) 10 (list [.num]) .constraint (v 21), .sub 23 .nil .var (.op (v 23) .num)]),
      .sub 22 .nil .constraint (.port 20 (list [.num]) 11 .nil), .skip] := by decide +kernel

/-- Number of assignments to ports. -/
def portSubs : Stmt → Nat
  | .seq a b => portSubs a + portSubs b
  | .subp _ _ _ _ _ _ => 1
  | .ite _ a b => portSubs a + portSubs b
  | .loop _ b => portSubs b
  | .block b => portSubs b
  | _ => 0

/-- `template M(n) { signal output o; component c; c = e; c.in[0] <== 5; o <== c.out; }` -/
def with1 (e : Exp) : Def := ⟨[2], chain [.decl (.sig .output) 21 .nil, .decl (.comp none) 20 .nil,
  .sub 20 .nil .var e, .subp 20 .nil 10 (list [.num]) .constraint .num, .sub 21 .nil .constraint (.port 20 .nil 11 .nil)]⟩

/-- `component main = M(1);` with function `f` of one argument. -/
def prog (D : Def) : Prog := infer ⟨[(100, ⟨[1], .ret (v 1)⟩)], [(200, tplA), (201, D)], .call 201 (list [.num])⟩

/-- The conditions of the theorems on programs. -/
def Accepted (P : Prog) : Prop := structured P = true ∧ (∀ t ∈ P.tpls, Once t.2) ∧
  (∀ t ∈ P.tpls, Verif.Types.get P.fns t.1 = none) ∧ names P = true ∧ (check P (guess P) 5).rep = []

instance (P : Prog) : Decidable (Accepted P) := by unfold Accepted; infer_instance

/-- Without `placed` it fails. `c = n ? A(1) : A(2);`, an accepted way to choose the arguments of a template: the
assignment `c.in[0] <== 5` after it is not in the code of the witness calculator, and `c.out` is taken for a component.
With `c = A(1);` they are as they should be. -/
theorem C94_switch_violated :
    let D := with1 (.cond (v 2) (.call 200 (list [.num])) (.call 200 (list [.num])))
    let D' := with1 (.call 200 (list [.num]))
    Accepted (prog D) ∧ parS D.body = true ∧ portSubs D.body = 1 ∧ portSubs (rm (reduce (prog D) D).st) = 0 ∧
    (⟨20, some 11, .comp none⟩ : Rec) ∈ (reduce (prog D) D).recs ∧
    Accepted (prog D') ∧ portSubs (rm (reduce (prog D') D').st) = 1 ∧
    (⟨20, some 11, .sig⟩ : Rec) ∈ (reduce (prog D') D').recs := by decide +kernel

/-- `template M(n) { component c; var i; while (n - i) { if (i) { c.in[0] <== 5; } else { c = A(1); } i = i + 1; } }`, or
with the branches exchanged. -/
def late (swap : Bool) : Def :=
  let use := Stmt.subp 20 .nil 10 (list [.num]) .constraint .num
  let set := Stmt.sub 20 .nil .var (.call 200 (list [.num]))
  ⟨[2], chain [.decl (.comp none) 20 .nil, .decl .var 23 .nil, .loop (.op (v 2) (v 23)) (chain [
    .ite (v 23) (if swap then set else use) (if swap then use else set), .sub 23 .nil .var (.op (v 23) .num)])]⟩

/-- The same if the component gets its template later in the text, though before in time. The order of the branches
decides. -/
theorem C94_order_violated : Accepted (prog (late false)) ∧ parS (late false).body = true ∧
    portSubs (late false).body = 1 ∧ portSubs (rm (reduce (prog (late false)) (late false)).st) = 0 ∧
    Accepted (prog (late true)) ∧ portSubs (rm (reduce (prog (late true)) (late true)).st) = 1 := by decide +kernel

/-- `c = parallel n ? A(1) : A(2);` is accepted by the type checker, but the pass before it panics. -/
theorem C94_parallel_violated :
    let D := with1 (.par (.cond (v 2) (.call 200 (list [.num])) (.call 200 (list [.num]))))
    Accepted (prog D) ∧ Rep.panic ∈ (reduce (prog D) D).reps := by decide +kernel

/-- `c = f(1);` with a function `f`, or `c = parallel 1;`: the type checker would report it, but the pass before it
panics. -/
theorem C94_wrong_violated : ∀ e ∈ [Exp.call 100 (list [.num]), .par .num],
    (check (prog (with1 e)) (guess (prog (with1 e))) 5).rep ≠ [] ∧
    Rep.panic ∉ (check (prog (with1 e)) (guess (prog (with1 e))) 5).rep ∧
    Rep.panic ∈ (reduce (prog (with1 e)) (with1 e)).reps := by decide +kernel

/-- `template M(n) { signal x; { var y; y = 3; } }` with the two names as parameters. -/
def shade (x y : Nat) : Def := ⟨[2], chain [.decl (.sig .inter) x .nil,
  .block (chain [.decl .var y .nil, .sub y .nil .var .num])]⟩

/-- Without names of their own: a variable is taken for the signal of the same name of an outer block. -/
theorem C94_shadow_violated : names (prog (shade 20 20)) = true ∧ structured (prog (shade 20 20)) = true ∧
    (check (prog (shade 20 20)) (guess (prog (shade 20 20))) 5).rep = [] ∧
    (reduce (prog (shade 20 20)) (shade 20 20)).recs = [⟨20, none, .sig⟩] ∧
    (reduce (prog (shade 20 21)) (shade 20 21)).recs = [⟨21, none, .var⟩] := by decide +kernel

end Verif.Props.Reduce
