import Verif.ExpandNamed

/-!
# C90: replacing constants does not change what functions and buses mean

`handle_function_constants` and `handle_bus_constants` replace, in the body of every function and
of every bus, each variable that is only given a value where it is declared by that value's
expression (`type_analysis/src/decorators/constants_handler.rs`).  What is executed and compiled is
the new body.

The full statement is: on every body that passes the checks before, the rewriting ends without a
panic, and for all values and operations of the language the new body returns, logs and declares
the same as the old one; a body without reports declares its arrays with the same lengths in all
calls.  It does not hold: see the `_violated` theorems.  What is proved is the first part for
bodies in which no name is declared where it can be seen already, and without what called
functions log.
-/

set_option linter.unusedVariables false

namespace Verif.Props.Expand
open Verif.Expand

/-! ## A language for the examples -/

/-- Integers; `+`, `<`; the call `g(v)` logs `v` and returns `v`. -/
def ints : Sem Int where
  num := id
  node := fun k vs =>
    match k, vs with
    | .op "+", [a, b] => some (a + b, [])
    | .op "<", [a, b] => some (if a < b then 1 else 0, [])
    | .call "g", [a] => some (a, [.logged [a]])
    | _, _ => none
  truth := fun v => some (v != 0)
  fresh := fun _ _ => some 0
  read := fun v acc is => if acc = [] ∧ is = [] then some v else none
  write := fun _ acc is v => if acc = [] ∧ is = [] then some v else none
  read_nil := by simp
  write_scalar := by simp

/-- A variable. -/
abbrev v (x : String) : Ex := .var x [] []

/-- `var x = e;` -/
abbrev decl (x : String) (e : Ex) : Stmt := .init [⟨x, true, [], false, [e]⟩] []

/-! ## What holds -/

/-- A function returns the same before and after, for all arguments and whatever the operations
and the called functions do, and it fails (an `assert`, a division by zero, no end after `n` turns
of a loop) in the same cases. -/
theorem C90_value_partial {V : Type} (S : Sem V) (params : List String) (ss : List Stmt)
    (reports : List Ex) (body' : Stmt) (hp : PlainAll params params ss)
    (h : handleFunction params (.block ss) = some (reports, body'))
    (n : Nat) (args : List V) (hl : params.length = args.length) :
    (call S n params body' args).map Prod.fst =
      (call S n params (.block ss) args).map Prod.fst := by
  simp only [handleFunction, Option.bind_eq_bind, Option.bind_eq_some_iff, Prod.exists] at h
  obtain ⟨b, E, hi, r, E', hv, h⟩ := h
  have hb : (expand b [[]]).1 = body' := by
    have := Option.some.inj h
    exact (Prod.mk.inj this).2
  subst hb
  have key := body_kept S.hush (hush_silent S) n params params ss false [[]] (by simp) b E
    (fun y hy => ⟨hy, rfl⟩) (by simp [Env.get]) (by simpa only [Plain] using hp) hi args hl
  have hrun : call S n params b args = call S n params (.block ss) args := by
    unfold call
    rw [infer_run S n (.block ss) _ b E hi]
  have a1 := call_hush S n params (expand b [[]]).1 args
  have a2 := call_hush S n params b args
  rw [key, a2] at a1
  rw [← hrun]
  exact a1.symm

/-- With functions that log nothing when they are called, also what the function itself logs,
constrains and declares, with the lengths of arrays, is the same. -/
theorem C90_trace_partial {V : Type} (S : Sem V)
    (hS : ∀ k vs r t, S.node k vs = some (r, t) → t = [])
    (params : List String) (ss : List Stmt) (reports : List Ex) (body' : Stmt)
    (hp : PlainAll params params ss)
    (h : handleFunction params (.block ss) = some (reports, body'))
    (n : Nat) (args : List V) (hl : params.length = args.length) :
    call S n params body' args = call S n params (.block ss) args := by
  simp only [handleFunction, Option.bind_eq_bind, Option.bind_eq_some_iff, Prod.exists] at h
  obtain ⟨b, E, hi, r, E', hv, h⟩ := h
  have hb : (expand b [[]]).1 = body' := by
    have := Option.some.inj h
    exact (Prod.mk.inj this).2
  subst hb
  have key := body_kept S hS n params params ss false [[]] (by simp) b E
    (fun y hy => ⟨hy, rfl⟩) (by simp [Env.get]) (by simpa only [Plain] using hp) hi args hl
  rw [key]
  unfold call
  rw [infer_run S n (.block ss) _ b E hi]

/-- The same for the bodies of buses, whose parameters are constants. -/
theorem C90_bus_partial {V : Type} (S : Sem V)
    (hS : ∀ k vs r t, S.node k vs = some (r, t) → t = [])
    (params : List String) (ss : List Stmt) (reports : List Ex) (body' : Stmt)
    (hp : PlainAll [] params ss)
    (h : handleBus params (.block ss) = some (reports, body'))
    (n : Nat) (args : List V) (hl : params.length = args.length) :
    call S n params body' args = call S n params (.block ss) args := by
  simp only [handleBus, Option.bind_eq_bind, Option.bind_eq_some_iff, Prod.exists] at h
  obtain ⟨b, E, hi, r, E', hv, h⟩ := h
  have hb := (Prod.mk.inj (Option.some.inj h)).2
  subst hb
  have hH : params.foldl (fun (H : Env Ex) p => Env.add H p (.var p [] [])) [[]] =
      [(params.map fun p => (p, Ex.var p [] [])).reverse ++ []] :=
    foldl_add (fun p => Ex.var p [] []) params [] []
  have key := body_kept S hS n params [] ss true
    (params.foldl (fun (H : Env Ex) p => Env.add H p (.var p [] [])) [[]])
    (by rw [hH]; simp) b E (by simp) (by
      intro x e hx
      rw [hH] at hx
      unfold Env.get at hx
      simp only [List.flatten_cons, List.flatten_nil, List.append_nil] at hx
      have hmem : ∀ (l : List (String × Ex)), l.lookup x = some e → (x, e) ∈ l := by
        intro l
        induction l with
        | nil => simp
        | cons p l ih =>
          obtain ⟨z, w⟩ := p
          rw [List.lookup_cons]
          by_cases hz : x = z
          · subst hz; simp
            intro hw; exact Or.inl hw.symm
          · have : (x == z) = false := by simp [hz]
            rw [this]
            intro hl; exact List.mem_cons_of_mem _ (ih hl)
      have := hmem _ hx
      rw [List.mem_reverse] at this
      obtain ⟨p, hp, hpe⟩ := List.mem_map.1 this
      obtain ⟨rfl, rfl⟩ := Prod.mk.inj hpe
      exact ⟨hp, rfl⟩) (by simpa only [Plain] using hp) hi args hl
  rw [key]
  unfold call
  rw [infer_run S n (.block ss) _ b E hi]

/-- Neither rewriting panics on a body that `analyze_symbols` accepts, as long as no length of an
array reads a name of the same declaration. -/
theorem C90_total_partial (params : List String) (ss : List Stmt)
    (hn : NamedAll params params ss) (ha : ApartAll ss) :
    (∃ r b, handleFunction params (.block ss) = some (r, b)) ∧
    ∃ r b, handleBus params (.block ss) = some (r, b) := by
  constructor
  · obtain ⟨b, E, r, E', h1, h2⟩ := body_total params ss false hn ha
    exact ⟨r, (expand b [[]]).1, by simp [handleFunction, h1, h2]⟩
  · obtain ⟨b, E, r, E', h1, h2⟩ := body_total params ss true hn ha
    exact ⟨r, _, by simp [handleBus, h1, h2]; rfl⟩

/-! ## A function for which they hold -/

/-- `var k = 2; var s = x; for (var i = 0; i < k; i = i + 1) { s = s + k; } return s;` -/
def sample : List Stmt :=
  [decl "k" (.num 2), decl "s" (v "x"),
    .block [decl "i" (.num 0),
      .loop (.node (.op "<") [v "i", v "k"])
        (.block [.block [.subst "s" [] [] (.node (.op "+") [v "s", v "k"])],
          .subst "i" [] [] (.node (.op "+") [v "i", .num 1])])],
    .ret (v "s")]

example : PlainAll ["x"] ["x"] sample := by
  simp [sample, PlainAll, Plain, PlainSyms, Expand.intro, introArr, readsAll, reads, IndexedAll,
    Indexed]

example : NamedAll ["x"] ["x"] sample ∧ ApartAll sample := by
  simp [sample, NamedAll, Named, NamedSyms, Expand.intro, readsAll, reads, ApartAll, Apart,
    CleanExs, CleanEx]

/-- The bound of the loop and the addend are replaced, and the value is the same. -/
example : (handleFunction ["x"] (.block sample)).map (fun p => p.1.length) = some 0 ∧
    ((handleFunction ["x"] (.block sample)).bind fun p => call ints 9 ["x"] p.2 [5]) =
      some (some 9, [.declared "k" [], .declared "s" [], .declared "i" []]) := by decide +kernel

example : ∃ r b, handleFunction ["x"] (.block sample) = some (r, b) ∧
    call ints 9 ["x"] (.block sample) [5] =
      some (some 9, [.declared "k" [], .declared "s" [], .declared "i" []]) :=
  have hx : NamedAll ["x"] ["x"] sample ∧ ApartAll sample := by
    simp [sample, NamedAll, Named, NamedSyms, Expand.intro, readsAll, reads, ApartAll, Apart,
      CleanExs, CleanEx]
  have ⟨r, b, h⟩ := (C90_total_partial ["x"] sample hx.1 hx.2).1
  ⟨r, b, h, by decide +kernel⟩

/-- A bus `B(n)` with `signal a[n];`. -/
example : PlainAll [] ["n"] [.init [⟨"a", false, [v "n"], false, []⟩] []] ∧
    (handleBus ["n"] (.block [.init [⟨"a", false, [v "n"], false, []⟩] []])).map
      (fun p => (p.1.length, call ints 3 ["n"] p.2 [7])) =
      some (0, some (none, [.declared "a" [7]])) := by
  refine ⟨by simp [PlainAll, Plain, PlainSyms, readsAll, IndexedAll], by decide +kernel⟩

/-! ## What does not hold -/

/-- `var i = 5; var s = 0; for (var i = 0; i < 3; i = i + 1) { s = s + 1; } return s;` -/
def hidden : List Stmt :=
  [decl "i" (.num 5), decl "s" (.num 0),
    .block [decl "i" (.num 0),
      .loop (.node (.op "<") [v "i", .num 3])
        (.block [.block [.subst "s" [] [] (.node (.op "+") [v "s", .num 1])],
          .subst "i" [] [] (.node (.op "+") [v "i", .num 1])])],
    .ret (v "s")]

/-- A variable that hides a constant is replaced by the constant: the names are accepted, nothing
is reported, and the function returns `0` in place of `3` (`constants_handler.rs:350-363` adds an
entry only for constants, so the entry of the outer name is found, 446-455). -/
theorem C90_shadow_violated : NamedAll [] [] hidden ∧
    (handleFunction [] (.block hidden)).map (fun p => p.1.length) = some 0 ∧
    (call ints 9 [] (.block hidden) []).map Prod.fst = some (some 3) ∧
    ((handleFunction [] (.block hidden)).bind fun p =>
      (call ints 9 [] p.2 []).map Prod.fst) = some (some 0) := by
  refine ⟨?_, by decide +kernel, by decide +kernel, by decide +kernel⟩
  simp [hidden, NamedAll, Named, NamedSyms, Expand.intro, readsAll, reads]

/-- In `var n = 4; { var a = n; { var n = 7; return a; } }` the value is kept, as `n` has been
replaced in `a` before. -/
example : ((handleFunction [] (.block [decl "n" (.num 4), .block [decl "a" (v "n"),
    .block [decl "n" (.num 7), .ret (v "a")]]])).bind fun p =>
      (call ints 9 [] p.2 []).map Prod.fst) = some (some 4) := by decide +kernel

/-- `var a = b; var b = 3; return a;` inside a block, with `b` the parameter. -/
def captured : List Stmt := [.block [decl "a" (v "b"), decl "b" (.num 3), .ret (v "a")]]

/-- The initial value of a constant is looked up among the names of the whole block
(`constants_handler.rs:123-130` runs after all the declarations), so `a` counts as constant by the
inner `b`, and reading it reads the inner `b`. -/
theorem C90_capture_violated : NamedAll ["b"] ["b"] captured ∧
    (handleFunction ["b"] (.block captured)).map (fun p => p.1.length) = some 0 ∧
    (call ints 9 ["b"] (.block captured) [8]).map Prod.fst = some (some 8) ∧
    ((handleFunction ["b"] (.block captured)).bind fun p =>
      (call ints 9 ["b"] p.2 [8]).map Prod.fst) = some (some 3) := by
  refine ⟨?_, by decide +kernel, by decide +kernel, by decide +kernel⟩
  simp [captured, NamedAll, Named, NamedSyms, Expand.intro, readsAll, reads]

/-- `var a = x; { var b = a; var w[b]; return 0; }` -/
def sized : List Stmt :=
  [decl "a" (v "x"), .block [decl "b" (v "a"), .init [⟨"w", true, [v "b"], false, []⟩] [],
    .ret (.num 0)]]

/-- An array whose length depends on the argument is not reported when it goes through a variable
of an inner block: the tags of that block are settled before those of the outer one
(`constants_handler.rs:139-151`).  Without the inner block it is reported. -/
theorem C90_length_violated : NamedAll ["x"] ["x"] sized ∧ PlainAll ["x"] ["x"] sized ∧
    (handleFunction ["x"] (.block sized)).map (fun p => p.1.length) = some 0 ∧
    ((call ints 9 ["x"] (.block sized) [1]).map fun p => decide (.declared "w" [1] ∈ p.2)) =
      some true ∧
    ((call ints 9 ["x"] (.block sized) [2]).map fun p => decide (.declared "w" [2] ∈ p.2)) =
      some true ∧
    (handleFunction ["x"] (.block [decl "a" (v "x"),
      .init [⟨"w", true, [v "a"], false, []⟩] [], .ret (.num 0)])).map (fun p => p.1.length) =
      some 1 := by
  refine ⟨?_, ?_, by decide +kernel, by decide +kernel, by decide +kernel, by decide +kernel⟩
  · simp [sized, NamedAll, Named, NamedSyms, Expand.intro, readsAll, reads]
  · simp [sized, PlainAll, Plain, PlainSyms, Expand.intro, introArr, readsAll, reads, IndexedAll,
      Indexed]

/-- `var n = 2, w[n];` -/
def joined : List Stmt :=
  [.init [⟨"n", true, [], false, [.num 2]⟩, ⟨"w", true, [v "n"], false, []⟩] [], .ret (.num 0)]

/-- A length that reads a name of the same declaration is accepted by `analyze_symbols` and makes
the check of the lengths panic: no name has been added when it looks at the dimensions
(`constants_handler.rs:189-199`). -/
theorem C90_total_violated : NamedAll [] [] joined ∧
    (handleFunction [] (.block joined)).isNone = true ∧
    (call ints 9 [] (.block joined) []).map Prod.fst = some (some 0) := by
  refine ⟨?_, by decide +kernel, by decide +kernel⟩
  simp [joined, NamedAll, Named, NamedSyms, Expand.intro, readsAll, reads]

/-- `var n = g(1); return n + n;` where `g` logs. -/
def noisy : List Stmt := [decl "n" (.node (.call "g") [.num 1]),
  .ret (.node (.op "+") [v "n", v "n"])]

/-- A constant initialised by a call is replaced by the call, so the called function is run once
for the declaration and once more for each use: what it logs is repeated. -/
theorem C90_log_violated : NamedAll [] [] noisy ∧ PlainAll [] [] noisy ∧
    call ints 9 [] (.block noisy) [] = some (some 2, [.declared "n" [], .logged [1]]) ∧
    ((handleFunction [] (.block noisy)).bind fun p => call ints 9 [] p.2 []) =
      some (some 2, [.declared "n" [], .logged [1], .logged [1], .logged [1]]) := by
  refine ⟨?_, ?_, by decide +kernel, by decide +kernel⟩
  · simp [noisy, NamedAll, Named, NamedSyms, Expand.intro, readsAll, reads]
  · simp [noisy, PlainAll, Plain, PlainSyms, Expand.intro, introArr, readsAll, reads, IndexedAll,
      Indexed]

end Verif.Props.Expand
