import Verif.TypesCheck
import Verif.TypesNames

/-!
C77: a program accepted by the type checker meets no value of the wrong kind or dimension when it is executed,
and calls only definitions that are kept in the archive. C78: a program accepted by the symbol analysis never
looks up a name that is not there.
-/

set_option linter.unusedVariables false

namespace Verif.Props.Types

open Verif.Types

/-- A list of expressions. -/
def list : List Exp → Exp
  | [] => .nil
  | e :: es => .cons e (list es)

/-- A sequence of statements. -/
def chain : List Stmt → Stmt
  | [] => .skip
  | s :: ss => .seq s (chain ss)

/-- `x[es]`. -/
def v (x : Nat) (es : List Exp := []) : Exp := .var x (list es)

/-- `function sum(a, n) { var s; while (n) { s = s + a[n]; n = n - 1; } return s; }` -/
def sum : Def := ⟨[1, 2], chain [.decl .var 3 .nil, .sub 3 .nil .var .num,
  .loop (v 2) (chain [.sub 3 .nil .var (.op (v 3) (v 1 [v 2])), .sub 2 .nil .var (.op (v 2) .num)]), .ret (v 3)]⟩

/-- `template A(k) { signal input in[k]; signal output out; out <== in[0]; }` -/
def tplA : Def := ⟨[1], chain [.decl (.sig .input) 10 (list [v 1]), .decl (.sig .output) 11 .nil,
  .sub 11 .nil .constraint (v 10 [.num])]⟩

/-- `template Main(n) { signal input x[n][n]; signal output y; component c[n]; var v[n]; var i;
while (i - n) { c[i] = A(n); c[i].in <== x[i]; v[i] = sum([c[i].out, 1], n); i = i + 1; } y <-- sum(v, n); }` -/
def tplMain : Def := ⟨[2], chain [.decl (.sig .input) 20 (list [v 2, v 2]), .decl (.sig .output) 21 .nil,
  .decl (.comp none) 22 (list [v 2]), .decl .var 23 (list [v 2]), .decl .var 24 .nil,
  .loop (.op (v 24) (v 2)) (chain [.sub 22 (list [v 24]) .var (.call 200 (list [v 2])),
    .subp 22 (list [v 24]) 10 .nil .constraint (v 20 [v 24]),
    .sub 23 (list [v 24]) .var (.call 100 (list [.arr (list [.port 22 (list [v 24]) 11 .nil, .num]), v 2])),
    .sub 24 .nil .var (.op (v 24) .num)]),
  .sub 21 .nil .signal (.call 100 (list [v 23, v 2]))]⟩

/-- The program of the examples: `component main = Main(3);` -/
def sample : Prog := ⟨[(100, sum)], [(200, tplA), (201, tplMain)], .call 201 (list [.num])⟩

/-- C77 for executions in which a value read at an unknown position or chosen by an unknown condition fits
everywhere (`faithful = false`), and for templates whose signals and components have names of their own
(`Once`). For all programs accepted without report: no execution, whatever the conditions, positions, numbers of
iterations and whatever the depth of calls, meets a value of the wrong kind or dimension, or calls a definition
that is not in the archive. `given` is the guess of the types of functions; nothing is assumed of it. -/
theorem C77_partial (P : Prog) (given : Nat → List Nat → Guess) (fuel : Nat) (hs : structured P = true)
    (ho : ∀ t ∈ P.tpls, Once t.2) (h : (check P given fuel).rep = []) (o : Nat → Nat) (depth : Nat) :
    ∀ e, run P false (check P given fuel).reached o depth = .error e → e ≠ .kind ∧ e ≠ .callee := by
  obtain ⟨R, hR, ts, hm⟩ := check_typed hs ho h
  intro e he
  have := run_safe (o := o) (fun f hf => hf) hR hm depth
  rw [he] at this
  exact this

example : structured sample = true ∧ (∀ t ∈ sample.tpls, Once t.2) ∧ (∀ t ∈ sample.tpls, Verif.Types.get sample.fns t.1 = none) ∧
    (check sample (guess sample) 5).rep = [] ∧
    (check sample (guess sample) 5).reg = [((201, [0]), 0), ((200, [0]), 0), ((100, [1, 0]), 0)] ∧
    (match run sample false (check sample (guess sample) 5).reached (fun _ => 1) 5 with
      | .ok (vs, _) => decide (vs = [.tp 201 [(21, 0), (20, 2)]])
      | _ => false) = true := by decide +kernel

theorem bnd_ok {α β : Type} {r : Res α} {f : α → Nat → Res β} {b : β} {k : Nat} (h : bnd r f = .ok (b, k)) :
    ∃ a k1, r = .ok (a, k1) ∧ f a k1 = .ok (b, k) := by
  unfold bnd at h
  split at h
  · exact ⟨_, _, rfl, h⟩
  · cases h

/-- The value of an execution of C77 is an instance of the template of the main component,
and every port of it has the dimensions the checker takes from the text of the template. -/
theorem C77_main_partial (P : Prog) (given : Nat → List Nat → Guess) (fuel : Nat) (hs : structured P = true)
    (ho : ∀ t ∈ P.tpls, Once t.2) (h : (check P given fuel).rep = []) (hd : ∀ t ∈ P.tpls, get P.fns t.1 = none)
    (o : Nat → Nat) (depth : Nat) {vs : List Val} {k : Nat}
    (hr : run P false (check P given fuel).reached o depth = .ok (vs, k)) :
    ∃ t es D, P.main = .call t es ∧ get P.tpls t = some D ∧
      ∃ ports, vs = [.tp t ports] ∧ ∀ s n, get ports s = some n → portGet D.body s = some n := by
  obtain ⟨R, hR, ts, hm⟩ := check_typed hs ho h
  have hv := run_safe (o := o) (fun f hf => hf) hR hm depth
  rw [hr] at hv
  have hmain : ∃ t es D, P.main = .call t es ∧ get P.tpls t = some D := by
    unfold check at h
    split at h
    · rename_i st hty
      have := ty_ok (callF_ok (given := given) hs ho fuel) P.main St.init
      rw [hty] at this
      obtain ⟨_, ht, _⟩ := this.2.2.2 h
      cases ht
    · split at h
      · rename_i t es hmn
        have := (need_rep h).1
        rw [Option.isSome_iff_exists] at this
        obtain ⟨D, hD⟩ := this
        exact ⟨t, es, D, hmn, hD⟩
      · exact absurd h (add_ne _ _)
  obtain ⟨t, es, D, h1, h2⟩ := hmain
  refine ⟨t, es, D, h1, h2, ?_⟩
  rw [h1] at hm
  have hts : ts = [.tpl t] := by
    have hf := hd _ (get_mem h2)
    simp only at hf
    cases hm with
    | callf =>
      rename_i hD _ _ _
      rw [hf] at hD; cases hD
    | callt => rfl
  subst hts
  simp only [Safe] at hv
  unfold run at hr
  rw [h1] at hr
  simp only [eval] at hr
  obtain ⟨a, k1, _, hr⟩ := bnd_ok hr
  obtain ⟨_, k2, _, hr⟩ := bnd_ok hr
  obtain ⟨_, k3, _, hr⟩ := bnd_ok hr
  obtain ⟨w, k4, hc, hr⟩ := bnd_ok hr
  cases hr
  cases hv with
  | cons hab hnil =>
    have : ∃ ports, w = .tp t ports := by
      cases depth with
      | zero => cases hc
      | succ n =>
        have hf := hd _ (get_mem h2)
        simp only at hf
        simp only [callX, hf, h2] at hc
        split at hc
        · cases hc
        · obtain ⟨r, k5, _, hc⟩ := bnd_ok hc
          split at hc
          · cases hc
          · cases hc; exact ⟨_, rfl⟩
    obtain ⟨ports, rfl⟩ := this
    obtain ⟨hu, D', hD', hp⟩ := hab
    rw [h2] at hD'
    cases hD'
    exact ⟨ports, rfl, hp⟩

/-- `template Id() { signal input x; signal output y; y <== x; }` -/
def tplId : Def := ⟨[], chain [.decl (.sig .input) 10 .nil, .decl (.sig .output) 11 .nil, .sub 11 .nil .constraint (v 10)]⟩

/-- C77 does not hold with the shapes of the code: `var a[2][2] = [(in == 0) ? [1, 2] : [3, 4], [5, 6]];` is accepted,
the execution of the array literal meets a single cell beside an array. -/
theorem C77_violated :
    let P : Prog := ⟨[], [(200, ⟨[], chain [.decl (.sig .input) 10 .nil, .decl .var 1 (list [.num, .num]),
      .sub 1 .nil .var (.arr (list [.cond (.op (v 10) .num) (.arr (list [.num, .num])) (.arr (list [.num, .num])),
        .arr (list [.num, .num])]))]⟩)], .call 200 .nil⟩
    names P = true ∧ structured P = true ∧ (∀ t ∈ P.tpls, Once t.2) ∧ (check P (guess P) 5).rep = [] ∧
    (match run P true (check P (guess P) 5).reached (fun _ => 2) 5 with
      | .error .kind => true
      | _ => false) = true := by decide +kernel

/-- Without names of their own C77 fails: `component x = Id(); { var x; x = 5; }` is accepted, the assignment to the
variable aborts (execute.rs:380-386, 1571). -/
theorem C77_shadow_violated :
    let P : Prog := ⟨[], [(200, tplId), (201, ⟨[], chain [.decl (.comp none) 20 .nil, .sub 20 .nil .var (.call 200 .nil),
      .block (chain [.decl .var 20 .nil, .sub 20 .nil .var .num])]⟩)], .call 201 .nil⟩
    names P = true ∧ structured P = true ∧ (check P (guess P) 5).rep = [] ∧
    (match run P true (check P (guess P) 5).reached (fun _ => 1) 5 with
      | .error .kind => true
      | _ => false) = true := by decide +kernel

/-- The converse fails as well: `signal input x[1]; { var x; x = 5; }` is reported, because the dimensions of a name are
those of the signal even where the name is a variable (type_check.rs:1200-1216). -/
theorem C77_shadow_reject :
    let P : Prog := ⟨[], [(201, ⟨[], chain [.decl (.sig .input) 20 (list [.num]),
      .block (chain [.decl .var 20 .nil, .sub 20 .nil .var .num])]⟩)], .call 201 .nil⟩
    names P = true ∧ structured P = true ∧ (check P (guess P) 5).rep ≠ [] := by decide +kernel

/-- Two declarations of a port: `if (k) { signal input x; } else { signal input x[3]; }`. The checker takes the last one
whatever `k` is; `c.x <== s` with an array `s` is accepted and meets a port with no dimensions. -/
theorem C77_ports_violated :
    let P : Prog := ⟨[], [(200, ⟨[1], chain [.ite (v 1) (.decl (.sig .input) 10 .nil) (.decl (.sig .input) 10 (list [.num]))]⟩),
      (201, ⟨[], chain [.decl (.sig .input) 20 (list [.num]), .decl (.comp none) 21 .nil,
        .sub 21 .nil .var (.call 200 (list [.num])), .subp 21 .nil 10 .nil .constraint (v 20)]⟩)], .call 201 .nil⟩
    names P = true ∧ structured P = true ∧ (check P (guess P) 5).rep = [] ∧
    (match run P true (check P (guess P) 5).reached (fun k => if k = 1 then 0 else 1) 5 with
      | .error .kind => true
      | _ => false) = true := by decide +kernel

/-- `function f(x, n) { if (n) { return 0; } return f([x], n - 1); }` -/
def deepF : Def := ⟨[1, 2], chain [.ite (v 2) (.ret .num) .skip, .ret (.call 100 (list [.arr (list [v 1]), .op (v 2) .num]))]⟩

/-- `template M() { log(f(0, 3)); }` -/
def deep : Prog := ⟨[(100, deepF)], [(200, ⟨[], .log (.call 100 (list [.num, .num]))⟩)], .call 200 .nil⟩

theorem need_mem {st : St} {b : Bool} {r : Rep} (h : r ∈ st.rep) : r ∈ (st.need b).rep := by
  unfold St.need
  split
  · exact h
  · exact List.mem_append_left _ h

theorem regGet_none {l : List ((Nat × List Nat) × Nat)} {k : Nat × List Nat} (h : ∀ r, (k, r) ∉ l) : regGet l k = none := by
  cases hg : regGet l k with
  | none => rfl
  | some r => exact absurd (regGet_mem hg) (h r)

theorem deep_step (fuel : Nat) : ∀ (k : Nat) (st : St), (∀ j r, k ≤ j → ((100, [j, 0]), r) ∉ st.reg) →
    .fuel ∈ (callF deep (guess deep) fuel 100 [k, 0] st).1.rep := by
  induction fuel with
  | zero => intro k st h; exact List.mem_append_right _ (List.mem_singleton_self _)
  | succ fuel ih =>
    intro k st h
    have hreg := regGet_none fun r => h k r (Nat.le_refl k)
    have hg : guess deep 100 [k, 0] = .dim 0 := rfl
    have hget : get deep.fns 100 = some deepF := rfl
    unfold callF
    rw [hget]
    simp only [hreg, hg]
    have := ih (k + 1) { st with reg := st.reg ++ [((100, [k, 0]), 0)], env := paramsEnv deepF [k, 0], ret := some 0, reached := 100 :: st.reached } (by
      intro j r hj hm
      rcases List.mem_append.mp hm with hm | hm
      · exact h j r (by omega) hm
      · simp at hm; omega)
    have hbody : tyS deep (callF deep (guess deep) fuel) deepF.body
        { st with reg := st.reg ++ [((100, [k, 0]), 0)], env := paramsEnv deepF [k, 0], ret := some 0 } =
      tyS deep (callF deep (guess deep) fuel) (.ret (.call 100 (list [.arr (list [v 1]), .op (v 2) .num])))
        { st with reg := st.reg ++ [((100, [k, 0]), 0)], env := paramsEnv deepF [k, 0], ret := some 0 } := rfl
    rw [hbody]
    simp only [tyS]
    have harg : ty deep (callF deep (guess deep) fuel) (.call 100 (list [.arr (list [v 1]), .op (v 2) .num]))
        { st with reg := st.reg ++ [((100, [k, 0]), 0)], env := paramsEnv deepF [k, 0], ret := some 0 } =
      (match callF deep (guess deep) fuel 100 [k + 1, 0]
          { st with reg := st.reg ++ [((100, [k, 0]), 0)], env := paramsEnv deepF [k, 0], ret := some 0, reached := 100 :: st.reached } with
        | (st2, r) => (st2, r.map ([·]))) := by
      simp [ty, list, v, St.indices, St.need, symbol, compGet, sigGet, sigIn, getB, Verif.Types.get, single, FT.scalar, FT.dim,
        FT.isTpl, paramsEnv, deepF, lookup, deep, len]
    rw [harg]
    generalize callF deep (guess deep) fuel 100 [k + 1, 0]
          { st with reg := st.reg ++ [((100, [k, 0]), 0)], env := paramsEnv deepF [k, 0], ret := some 0, reached := 100 :: st.reached } = p at this ⊢
    obtain ⟨st2, r⟩ := p
    cases r with
    | none => exact this
    | some t =>
      simp only [Option.map, single]
      cases st2.ret with
      | none => exact List.mem_append_left _ this
      | some n => exact need_mem this

/-- The checker does not end on `deep`: every call of `f` is typed for one more dimension of its argument, although
its execution ends after three calls. The code recurses until the stack overflows. -/
theorem C77_endless_violated : names deep = true ∧ structured deep = true ∧
    ∀ fuel, .fuel ∈ (check deep (guess deep) fuel).rep := by
  refine ⟨by decide +kernel, by decide +kernel, fun fuel => ?_⟩
  cases fuel with
  | zero => decide +kernel
  | succ fuel =>
    have := deep_step fuel 0 { St.init with reached := [100, 200], reg := [((200, []), 0)] } (by intro j r _ h; simp at h)
    have hrun : check deep (guess deep) (fuel + 1) =
      (match callF deep (guess deep) fuel 100 [0, 0] { St.init with reached := [100, 200], reg := [((200, []), 0)] } with
        | (st, r) =>
          match r with
          | none => ({ st with env := St.init.env } : St)
          | some t => ({ st.need t.scalar with env := St.init.env } : St)) := by
      have hlog : callF deep (guess deep) (fuel + 1) 200 [] { St.init with reached := [200] } =
        ({ tyS deep (callF deep (guess deep) fuel) (.log (.call 100 (list [.num, .num])))
          { St.init with reached := [200], reg := [((200, []), 0)] } with env := St.init.env }, some (.tpl 200)) := rfl
      have harg : ty deep (callF deep (guess deep) fuel) (.call 100 (list [.num, .num]))
          { St.init with reached := [200], reg := [((200, []), 0)] } =
        (match callF deep (guess deep) fuel 100 [0, 0] { St.init with reached := [100, 200], reg := [((200, []), 0)] } with
          | (st2, r) => (st2, r.map ([·]))) := rfl
      have hmain : check deep (guess deep) (fuel + 1) =
        (match callF deep (guess deep) (fuel + 1) 200 [] { St.init with reached := [200] } with
          | (st2, r) =>
            match r with
            | none => st2
            | some _ => st2) := by
        have : ty deep (callF deep (guess deep) (fuel + 1)) deep.main St.init =
          (match callF deep (guess deep) (fuel + 1) 200 [] { St.init with reached := [200] } with
            | (st2, r) => (st2, r.map ([·]))) := rfl
        unfold check
        rw [this]
        generalize callF deep (guess deep) (fuel + 1) 200 [] { St.init with reached := [200] } = p
        obtain ⟨st2, r⟩ := p
        cases r <;> rfl
      rw [hmain, hlog]
      simp only [tyS, harg]
      generalize callF deep (guess deep) fuel 100 [0, 0] { St.init with reached := [100, 200], reg := [((200, []), 0)] } = p
      obtain ⟨st2, r⟩ := p
      cases r <;> rfl
    rw [hrun]
    generalize callF deep (guess deep) fuel 100 [0, 0] { St.init with reached := [100, 200], reg := [((200, []), 0)] } = p
      at this ⊢
    obtain ⟨st2, r⟩ := p
    cases r with
    | none => exact this
    | some t => exact need_mem (st := st2) this

/-- The checker reports `return h(g(x), g(y));` because the guess explores no function twice: correct programs are
rejected. -/
theorem C77_unable_violated :
    let P : Prog := ⟨[(100, ⟨[1], .ret (v 1)⟩), (101, ⟨[1, 2], .ret (.op (v 1) (v 2))⟩),
      (102, ⟨[1, 2], .ret (.call 101 (list [.call 100 (list [v 1]), .call 100 (list [v 2])]))⟩)],
      [(200, ⟨[], .log (.call 102 (list [.num, .num]))⟩)], .call 200 .nil⟩
    names P = true ∧ structured P = true ∧ (∀ fuel, fuel ≥ 2 → .err ∈ (check P (guess P) fuel).rep) ∧
    ∃ given, (check P given 9).rep = [] := by
  refine ⟨by decide +kernel, by decide +kernel, ?_, fun _ _ => .dim 0, by decide +kernel⟩
  intro fuel hf
  obtain ⟨n, rfl⟩ := Nat.exists_eq_add_of_le' hf
  exact List.mem_singleton.mpr rfl

/-- C78: in a program accepted by the symbol analysis every name an execution looks up, in expressions and as the
target of assignments, is in the environment, whatever the conditions and the depth of calls. Nothing is assumed
of the types. -/
theorem C78 (P : Prog) (h : names P = true) (faithful : Bool) (reached : List Nat) (o : Nat → Nat) (depth : Nat) :
    run P faithful reached o depth ≠ .error .unbound := by
  intro he
  have := run_bd (faithful := faithful) (reached := reached) (o := o) h depth
  rw [he] at this
  exact this rfl

example : names sample = true := by decide +kernel

/-- C77 and C78 together: a program accepted by the symbol analysis, the structural analyses and the type checker
either yields a value or ends where the model stops: a component not yet initialised, a function without return,
the depth of calls. -/
theorem C78_types_partial (P : Prog) (given : Nat → List Nat → Guess) (fuel : Nat) (hn : names P = true)
    (hs : structured P = true) (ho : ∀ t ∈ P.tpls, Once t.2) (h : (check P given fuel).rep = []) (o : Nat → Nat)
    (depth : Nat) (e : Err) (he : run P false (check P given fuel).reached o depth = .error e) : e = .stop := by
  have h1 := C77_partial P given fuel hs ho h o depth e he
  have h2 := C78 P hn false (check P given fuel).reached o depth
  rw [he] at h2
  cases e with
  | kind => exact absurd rfl h1.1
  | callee => exact absurd rfl h1.2
  | unbound => exact absurd rfl h2
  | stop => rfl

example : names sample = true ∧ structured sample = true ∧ (∀ t ∈ sample.tpls, Once t.2) ∧
    (check sample (guess sample) 5).rep = [] ∧
    (match run sample false (check sample (guess sample) 5).reached (fun _ => 1) 1 with
      | .error .stop => true
      | _ => false) = true := by decide +kernel

/-- A name declared in one branch only is not in scope after the conditional. -/
example : names ⟨[], [(200, ⟨[1], chain [.ite (v 1) (.decl .var 5 .nil) .skip, .log (v 5)]⟩)], .call 200 (list [.num])⟩ = false ∧
    (match run ⟨[], [(200, ⟨[1], chain [.ite (v 1) (.decl .var 5 .nil) .skip, .log (v 5)]⟩)], .call 200 (list [.num])⟩
      true [200] (fun _ => 0) 5 with
      | .error .unbound => true
      | _ => false) = true := by decide +kernel

end Verif.Props.Types
