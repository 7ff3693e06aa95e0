import Verif.StructLemmas

/-!
# C91: the structural checks on templates and buses

`Run` and `BusRun` (in `Verif.Struct`) are what the execution does with the statements; the checks
are compared with them.
-/

namespace Verif.Props.Struct
open Verif.Struct

/-- Two numbered declarations in one branch each, a variable in a loop. -/
def sampleOk : List Stmt :=
  [.init (.signal .input) [.decl 1 (.signal .input) "a" []],
   .ifElse (.num 1)
     (.block [.init (.signal .intermediate) [.decl 2 (.signal .intermediate) "b" []]])
     (.block [.init .component [.decl 3 .component "c" []]]),
   .loop (.num 1) (.block [.init .var [.decl 4 .var "i" [], .subst 5 "i" [] [] .var (.num 0)]])]

/-- A signal declared in a loop. -/
def sampleLoop : List Stmt :=
  [.loop (.num 1) (.block [.init (.signal .intermediate) [.decl 2 (.signal .intermediate) "b" []]])]

/-- The check on declarations in loops accepts a template exactly when no run declares the same
signal, component or bus twice: what it accepts declares a part of its declarations, in the order
they are written; of what it rejects some run declares twice at the same place. -/
theorem C91_loop (ss : List Stmt) (hb : BuiltAll false ss) :
    (loopsAll true ss = [] → ∀ tr, RunAll ss tr → List.Sublist (wires tr) (sitesAll ss)) ∧
    ((sitesAll ss).Nodup →
      (loopsAll true ss = [] ↔ ∀ tr, RunAll ss tr → (wires tr).Nodup)) := by
  refine ⟨fun hl tr h => loopsAll_true ss tr hb hl h, fun hn => ⟨fun hl tr h => ?_, fun h => ?_⟩⟩
  · exact (loopsAll_true ss tr hb hl h).nodup hn
  · by_contra hl
    obtain ⟨tr, h1, h2⟩ := loopsAll_true_run ss hb hl
    exact h2 (h tr h1)

example : BuiltAll false sampleOk ∧ (sitesAll sampleOk).Nodup ∧ loopsAll true sampleOk = [] ∧
    sitesAll sampleOk = [1, 2, 3] := by
  refine ⟨?_, by decide, by decide, by decide⟩
  simp [sampleOk, BuiltAll, Built, ItemsBuilt, ItemBuilt]

example : BuiltAll false sampleLoop ∧ (sitesAll sampleLoop).Nodup ∧
    loopsAll true sampleLoop = [.signal .intermediate] ∧
    ∃ tr, RunAll sampleLoop tr ∧ wires tr = [2, 2] := by
  refine ⟨?_, by decide, by decide,
    [.declared 2 (.signal .intermediate), .declared 2 (.signal .intermediate)], ?_, by decide⟩
  · simp [sampleLoop, BuiltAll, Built, ItemsBuilt, ItemBuilt]
  · simp only [sampleLoop, RunAll, Run]
    refine ⟨_, [], by simp, ⟨[[.declared 2 (.signal .intermediate)],
      [.declared 2 (.signal .intermediate)]], rfl, ?_⟩, rfl⟩
    intro t ht
    simp at ht
    subst ht
    exact ⟨[.declared 2 (.signal .intermediate)], [], rfl,
      ⟨[.declared 2 (.signal .intermediate)], [], rfl, rfl, rfl⟩, rfl⟩

/-- An accepted custom template adds no constraint and declares no component, in whatever run; the
intermediate signals and buses it declares are warned of. -/
theorem C91_custom (body : Stmt) (w : List Report) (h : customGate body = .ok w) (tr : List Ev)
    (hr : Run body tr) :
    (∀ id, Ev.constrained id ∉ tr) ∧
    (∀ id t, Ev.declared id t ∈ tr → t ≠ .component ∧ t ≠ .anonymous ∧
      ((t = .signal .intermediate ∨ ∃ b, t = .bus b .intermediate) → .intermediate id ∈ w)) := by
  have hw : (gate body).1 = [] ∧ (gate body).2 = w := by
    unfold customGate at h
    split at h
    · rename_i hq
      cases h
      exact ⟨hq, rfl⟩
    · cases h
  refine ⟨fun id hid => ?_, fun id t hid => ⟨?_, ?_, fun ht => ?_⟩⟩
  · obtain ⟨r, hr, _⟩ := (gate_sound body tr hr _ hid).1 trivial
    rw [hw.1] at hr
    cases hr
  · rintro rfl
    obtain ⟨r, hr, _⟩ := (gate_sound body tr hr _ hid).1 rfl
    rw [hw.1] at hr
    cases hr
  · rintro rfl
    obtain ⟨r, hr, _⟩ := (gate_sound body tr hr _ hid).1 rfl
    rw [hw.1] at hr
    cases hr
  · obtain ⟨r, hr, hre⟩ := (gate_sound body tr hr _ hid).2 ht
    rw [hw.2] at hr
    cases r with
    | component i => exact absurd hre.2 (by rcases ht with rfl | ⟨b, rfl⟩ <;> simp [XType.isComponent])
    | constraint i => exact absurd hre (by simp [Report.ev])
    | intermediate i => rw [← hre.1]; exact hr

/-- A custom template that computes an output with `<--`. -/
def sampleGate : Stmt :=
  .block [.init (.signal .input) [.decl 1 (.signal .input) "a" []],
    .init (.signal .intermediate) [.decl 2 (.signal .intermediate) "m" []],
    .subst 3 "m" [] [] .signal (.var "a" [] [])]

example : customGate sampleGate = .ok [.intermediate 2] := by rfl
example : Run sampleGate [.declared 1 (.signal .input), .declared 2 (.signal .intermediate)] := by
  simp [sampleGate, Run, RunAll]

/-- A custom template without `_ <== e` is rejected only when some run adds a constraint or declares
a component, and every report of it names something that some run does. -/
theorem C91_custom_needed_partial (body : Stmt) (hn : NoUnder body) :
    (∀ es, customGate body = .error es → es ≠ [] ∧ ∀ r ∈ es, ∃ tr, Run body tr ∧
      ∃ id, (r = .constraint id ∧ Ev.constrained id ∈ tr) ∨
        (r = .component id ∧ (Ev.declared id .component ∈ tr ∨ Ev.declared id .anonymous ∈ tr)) ∨
        (r = .intermediate id ∧ ∃ t, Ev.declared id t ∈ tr ∧
          (t = .signal .intermediate ∨ ∃ b, t = .bus b .intermediate))) ∧
    (∀ w, customGate body = .ok w → ∀ r ∈ w, ∃ tr, Run body tr ∧
      ∃ id, (r = .constraint id ∧ Ev.constrained id ∈ tr) ∨
        (r = .component id ∧ (Ev.declared id .component ∈ tr ∨ Ev.declared id .anonymous ∈ tr)) ∨
        (r = .intermediate id ∧ ∃ t, Ev.declared id t ∈ tr ∧
          (t = .signal .intermediate ∨ ∃ b, t = .bus b .intermediate))) := by
  have key : ∀ r, r ∈ (gate body).1 ∨ r ∈ (gate body).2 → ∃ tr, Run body tr ∧
      ∃ id, (r = .constraint id ∧ Ev.constrained id ∈ tr) ∨
        (r = .component id ∧ (Ev.declared id .component ∈ tr ∨ Ev.declared id .anonymous ∈ tr)) ∨
        (r = .intermediate id ∧ ∃ t, Ev.declared id t ∈ tr ∧
          (t = .signal .intermediate ∨ ∃ b, t = .bus b .intermediate)) := by
    intro r hr
    obtain ⟨tr, h, e, he, hre⟩ := gate_exact body hn r hr
    refine ⟨tr, h, ?_⟩
    cases r with
    | component i =>
      cases e with
      | declared j t =>
        obtain ⟨rfl, ht⟩ := hre
        refine ⟨i, Or.inr (Or.inl ⟨rfl, ?_⟩)⟩
        cases t with
        | component => exact Or.inl he
        | anonymous => exact Or.inr he
        | var => simp [XType.isComponent] at ht
        | signal k => simp [XType.isComponent] at ht
        | bus b k => simp [XType.isComponent] at ht
      | constrained j => exact absurd hre (by simp [Report.ev])
    | constraint i =>
      cases e with
      | declared j t => exact absurd hre (by simp [Report.ev])
      | constrained j =>
        obtain rfl : i = j := hre
        exact ⟨i, Or.inl ⟨rfl, he⟩⟩
    | intermediate i =>
      cases e with
      | declared j t =>
        obtain ⟨rfl, ht⟩ := hre
        exact ⟨i, Or.inr (Or.inr ⟨rfl, t, he, ht⟩)⟩
      | constrained j => exact absurd hre (by simp [Report.ev])
  refine ⟨fun es h => ?_, fun w h => ?_⟩
  · unfold customGate at h
    split at h
    · cases h
    · rename_i hq
      cases h
      exact ⟨hq, fun r hr => key r (Or.inl hr)⟩
  · unfold customGate at h
    split at h
    · cases h
      exact fun r hr => key r (Or.inr hr)
    · cases h

example : NoUnder (.block [.init .component [.decl 1 .component "c" []], .ceq 2 (.num 0) (.num 1)]) ∧
    customGate (.block [.init .component [.decl 1 .component "c" []], .ceq 2 (.num 0) (.num 1)]) =
      .error [.component 1, .constraint 2] :=
  ⟨by simp [NoUnder, NoUnderAll], rfl⟩

/-- `_ <== e` in a custom template is rejected as an added constraint, yet no run adds one
(`execute.rs:783-855` only evaluates `e`). -/
theorem C91_underscore_violated :
    ∃ body es, customGate body = .error es ∧ ∀ tr, Run body tr → ∀ id, Ev.constrained id ∉ tr := by
  refine ⟨.block [.under 1 .constraint (.var "a" [] [])], [.constraint 1], rfl, ?_⟩
  intro tr h id hid
  simp [Run, RunAll] at h
  subst h
  cases hid

/-- A bus passes its check exactly when it only declares inner signals and buses and executing it
ends; it then has exactly the fields that were collected from its text, in that order. -/
theorem C91_bus_partial (fs : List String) (ss : List Stmt) (hn : NoBusUnderAll ss) :
    (busAll fs ss = some 0 ↔ InnerAll ss ∧ ∃ r, BusRunAll fs ss r) ∧
    (busAll fs ss = some 0 → ∀ r, BusRunAll fs ss r ↔ r = fieldsAll ss) := by
  obtain ⟨h1, h2⟩ := busAll_zero fs ss hn
  refine ⟨h1, fun h r => ⟨fun hr => busRunAll_unique fs ss r _ hr (h2 h), ?_⟩⟩
  rintro rfl
  exact h2 h

/-- A point with an array of another bus. -/
def sampleBus : List Stmt :=
  [.init (.signal .intermediate) [.decl 1 (.signal .intermediate) "x" [],
      .decl 2 (.signal .intermediate) "y" [.call "f" [.var "n" [] []]]],
   .init (.bus "B" .intermediate) [.decl 3 (.bus "B" .intermediate) "z" [.num 2],
      .subst 4 "z" [] [] .var (.uniform (.busCall "B" [.num 1]) (.num 2))]]

example : NoBusUnderAll sampleBus ∧ busAll ["f"] sampleBus = some 0 ∧
    fieldsAll sampleBus = [("x", none, 0), ("y", none, 1), ("z", some "B", 1)] := by
  refine ⟨?_, by decide, by decide⟩
  simp [sampleBus, NoBusUnderAll, NoBusUnder]

example : busAll ["f"] [.loop (.num 1) (.block sampleBus)] = some 1 ∧ busAll [] sampleBus = some 1 ∧
    busAll ["f"] [.init (.signal .input) [.decl 1 (.signal .input) "x" []]] = some 1 := by
  decide

/-- The check of a bus ends with its reports when no tuple and no anonymous component stands in it. -/
theorem C91_total_partial (fs : List String) (ss : List Stmt) (h : PlainAll ss) :
    ∃ n, busAll fs ss = some n :=
  busAll_total fs ss h

example : PlainAll sampleBus := by simp [sampleBus, PlainAll, Plain, PlainExs, PlainEx]

/-- The bodies of buses are not freed of syntactic sugar (`apply_syntactic_sugar`,
`parser/src/syntax_sugar_remover.rs:7-41`, goes through templates and functions): on
`(a, b) = (c, d);` in a bus, or a tuple in a dimension, the check panics. -/
theorem C91_total_violated :
    busAll [] [.mult .sugar .sugar .var] = none ∧
    busAll [] [.init (.signal .intermediate)
      [.decl 1 (.signal .intermediate) "x" [.sugar]]] = none := by
  decide

/-- A field can be declared twice: blocks in a bus have scopes for the names but not for the fields
(`execute.rs:945-947`). -/
theorem C91_fields_violated :
    ∃ ss, busAll [] ss = some 0 ∧ BusRunAll [] ss (fieldsAll ss) ∧
      ¬ ((fieldsAll ss).map (·.1)).Nodup := by
  refine ⟨[.block [.init (.signal .intermediate) [.decl 1 (.signal .intermediate) "a" []]],
    .block [.init (.signal .intermediate) [.decl 2 (.signal .intermediate) "a" []]]],
    by decide, ?_, by decide⟩
  exact (busAll_zero [] _ (by simp [NoBusUnderAll, NoBusUnder])).2 (by decide)

end Verif.Props.Struct
