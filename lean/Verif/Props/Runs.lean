import Verif.RunsTop

/-!
# C69: every sub-component is run exactly when its last input has been assigned

`analyse` is the analysis that marks assignments of inputs as last, not last or unknown; `trL nm (analyse prog) t` says that `t`
is the list of assignments of an execution of the analysed instructions.  `cRuns` and `wRuns` tell for each of them whether the
C++ and the wasm program run the component after it; `cRuns` is `none` if an `assert` of the C++ program fails.
-/

set_option linter.unusedVariables false

namespace Verif.Props.Runs
open Verif.Runs

theorem flags_length : ∀ t : List Ev, (lastFlags t).length = t.length
  | [] => rfl
  | _ :: t => by simp [lastFlags, flags_length t]

theorem flags_get : ∀ (t : List Ev) (i : Nat), (lastFlags t)[i]? = some true ↔
    ∃ e, t[i]? = some e ∧ ∀ j e', i < j → t[j]? = some e' → e'.comp ≠ e.comp
  | [], i => by simp [lastFlags]
  | x :: t, 0 => by
    simp only [lastFlags, List.getElem?_cons_zero, Option.some.injEq, flag_iff, Has]
    constructor
    · intro h
      refine ⟨x, rfl, fun j e' hj he' hc => h ⟨e', ?_, hc⟩⟩
      obtain ⟨j, rfl⟩ : ∃ k, j = k + 1 := ⟨j - 1, by omega⟩
      rw [List.getElem?_cons_succ] at he'
      exact List.mem_of_getElem? he'
    · rintro ⟨e, rfl, h⟩ ⟨y, hy, hc⟩
      obtain ⟨j, hj⟩ := List.mem_iff_getElem?.1 hy
      exact h (j + 1) y (by omega) (by rw [List.getElem?_cons_succ]; exact hj) hc
  | x :: t, i + 1 => by
    simp only [lastFlags, List.getElem?_cons_succ]
    rw [flags_get t i]
    constructor
    · rintro ⟨e, he, h⟩
      refine ⟨e, he, fun j e' hj he' => ?_⟩
      obtain ⟨j, rfl⟩ : ∃ k, j = k + 1 := ⟨j - 1, by omega⟩
      rw [List.getElem?_cons_succ] at he'
      exact h j e' (by omega) he'
    · rintro ⟨e, he, h⟩
      exact ⟨e, he, fun j e' hj he' => h (j + 1) e' (by omega) (by rw [List.getElem?_cons_succ]; exact he')⟩

theorem total_eq (c : Comp) : ∀ t : List Ev, total c t = ((t.filter fun e => decide (e.comp = c)).map (·.amount)).sum
  | [] => rfl
  | e :: t => by
    by_cases h : e.comp = c
    · simp [total, h, total_eq c t]
    · simp [total, h, total_eq c t]

/-- The counter of every component starts with the number of its input elements, and the execution assigns them all. -/
def Complete (ctr : Comp → Int) (t : List Ev) : Prop :=
  ∀ c, (∃ e ∈ t, e.comp = c) → ctr c = (((t.filter fun e => decide (e.comp = c)).map (·.amount)).sum : Nat)

/-- The assignments to the anonymous component `n` are straight: no condition has some on both sides, and each instance is
assigned by each of its instructions once, in the order of the text. -/
def Straight (n : Nat) (prog : List Ins) (t : List Ev) : Prop :=
  oneArmL n prog = true ∧ ((anonL n prog).map (·.1)).Nodup ∧
  ∀ j, (∃ e ∈ t, e.comp = .anon n j) →
    (t.filter fun e => decide (e.comp = .anon n j)).map (·.site) = (anonL n prog).map (·.1)

/-- **C69**.  In every execution in which all assignments are non-empty and every touched component gets all its inputs, with
straight anonymous components, no `assert` of the C++ program fails, and both programs run a component after an assignment iff no
later assignment has the same component.  `_partial`: without the hypotheses it fails, see below. -/
theorem C69_partial (nm : Nat → Nat) (prog : List Ins) (t : List Ev) (san : Bool) (mixed : Nat → Bool) (ctr : Comp → Int)
    (htr : trL nm (analyse prog) t) (hpos : ∀ e ∈ t, 0 < e.amount) (hctr : Complete ctr t) (hanon : ∀ n, Straight n prog t) :
    ∃ rs, cRuns san mixed ctr t = some rs ∧ wRuns ctr t = rs ∧ rs.length = t.length ∧
      ∀ i : Nat, rs[i]? = some true ↔
        ∃ e : Ev, t[i]? = some e ∧ ∀ (j : Nat) (e' : Ev), i < j → t[j]? = some e' → e'.comp ≠ e.comp := by
  have hc : ∀ c, Has c t → ctr c = total c t := fun c h => by rw [total_eq]; exact hctr c h
  refine ⟨lastFlags t, cRuns_last san mixed t ctr hpos (fun c => ?_), wRuns_last t ctr hpos hc, flags_length t, flags_get t⟩
  cases c with
  | cmp k => exact ((visitL_top nm prog).2.2.2 t htr hpos k).inv (hc _)
  | anon n j =>
    by_cases hh : Has (.anon n j) t
    · exact Or.inr (Or.inl ⟨anon_B nm prog t n j htr hpos (hanon n).1 (hanon n).2.1 ((hanon n).2.2 j hh) hh,
        le_of_eq (hc _ hh).symm, fun _ => hc _ hh⟩)
    · exact Or.inr (Or.inr hh)

/-- The assertion of build_inputs_info.rs:190 holds for every list of instructions. -/
theorem C69_assert (prog : List Ins) : (visitL false Env.empty [] prog).2.1.bad = false :=
  (visitL_top (fun _ => 0) prog).2.1

/-- `d[i].x` with a computed position in a loop, then `if (..) { c.a = ..; } else { c.a = ..; } c.b = ..; A()(..,..)`. -/
def sample : List Ins :=
  [.loop [.store 0 (.unknown 1) (some 1) ⟨.unknown, false⟩],
   .branch [.store 1 (.known 0 0) (some 1) ⟨.unknown, false⟩, .store 2 (.known 1 1) (some 1) ⟨.unknown, false⟩]
     [.store 3 (.known 0 0) (some 1) ⟨.unknown, false⟩],
   .store 4 (.known 0 0) (some 2) ⟨.unknown, false⟩, .other,
   .store 5 (.anon 7) (some 1) ⟨.unknown, false⟩, .store 6 (.anon 7) none ⟨.unknown, false⟩]

/-- An execution of it. -/
def sampleRun : List Ev :=
  [⟨.cmp 2, 1, 0, ⟨.unknown, true⟩⟩, ⟨.cmp 1, 1, 0, ⟨.unknown, true⟩⟩, ⟨.cmp 0, 1, 1, ⟨.noLast, false⟩⟩,
   ⟨.cmp 1, 1, 2, ⟨.unknown, true⟩⟩, ⟨.cmp 0, 2, 4, ⟨.last, false⟩⟩,
   ⟨.anon 7 0, 1, 5, ⟨.noLast, false⟩⟩, ⟨.anon 7 0, 3, 6, ⟨.last, false⟩⟩]

/-- The hypotheses of `C69_partial` hold for a program with a loop, a condition and an anonymous component. -/
example : trL (fun k => if k = 0 then 0 else 1) (analyse sample) sampleRun := by
  refine ⟨[⟨.cmp 2, 1, 0, ⟨.unknown, true⟩⟩, ⟨.cmp 1, 1, 0, ⟨.unknown, true⟩⟩], _, ?_, ?_, rfl⟩
  · refine ⟨[[⟨.cmp 2, 1, 0, ⟨.unknown, true⟩⟩], [⟨.cmp 1, 1, 0, ⟨.unknown, true⟩⟩]], ?_, rfl⟩
    intro u hu
    simp only [List.mem_cons, List.not_mem_nil, or_false] at hu
    rcases hu with rfl | rfl
    · exact ⟨_, [], ⟨_, rfl, ⟨2, rfl, rfl⟩, rfl, rfl, by simp⟩, rfl, rfl⟩
    · exact ⟨_, [], ⟨_, rfl, ⟨1, rfl, rfl⟩, rfl, rfl, by simp⟩, rfl, rfl⟩
  · refine ⟨[⟨.cmp 0, 1, 1, ⟨.noLast, false⟩⟩, ⟨.cmp 1, 1, 2, ⟨.unknown, true⟩⟩], _, Or.inl ?_, ?_, rfl⟩
    · exact ⟨_, _, ⟨_, rfl, ⟨rfl, rfl⟩, rfl, rfl, by simp⟩, ⟨_, [], ⟨_, rfl, ⟨rfl, rfl⟩, rfl, rfl, by simp⟩, rfl, rfl⟩, rfl⟩
    · refine ⟨_, _, ⟨_, rfl, ⟨rfl, rfl⟩, rfl, rfl, by simp⟩, ⟨[], _, rfl, ?_, rfl⟩, rfl⟩
      exact ⟨_, _, ⟨_, rfl, ⟨0, rfl⟩, rfl, rfl, by simp⟩, ⟨_, [], ⟨_, rfl, ⟨0, rfl⟩, rfl, rfl, by simp⟩, rfl, rfl⟩, rfl⟩

example : (match cRuns true (fun _ => false) (fun c => match c with
      | .cmp 0 => 3 | .cmp 1 => 2 | .cmp 2 => 1 | _ => 4) sampleRun with
    | some rs => decide (rs = [true, false, false, true, true, false, true])
    | none => false) = true := by decide +kernel

example : oneArmL 7 sample = true ∧ ((anonL 7 sample).map (·.1)).Nodup ∧
    (sampleRun.filter fun e => decide (e.comp = .anon 7 0)).map (·.site) = (anonL 7 sample).map (·.1) := by decide

/-! ## Failures -/

/-- `A()(c ? x : y)`: the only input of an anonymous component is assigned in both arms of a condition. -/
def ternary : List Ins :=
  [.branch [.store 0 (.anon 0) (some 1) ⟨.unknown, false⟩] [.store 1 (.anon 0) (some 1) ⟨.unknown, false⟩]]

/-- When the condition does not hold the C++ program never runs the anonymous component, the wasm program does: the analysis visits
the first arm first, so the assignment in the second one is taken for an earlier one and marked as not the last. -/
theorem C69_anonymous_violated :
    ∃ t : List Ev, trL (fun _ => 0) (analyse ternary) t ∧ (∀ e ∈ t, 0 < e.amount) ∧ Complete (fun _ => 1) t ∧
      cRuns false (fun _ => false) (fun _ => 1) t = some [false] ∧ wRuns (fun _ => 1) t = [true] := by
  refine ⟨[⟨.anon 0 0, 1, 1, ⟨.noLast, false⟩⟩], ⟨_, [], Or.inr ⟨_, [], ⟨_, rfl, ⟨0, rfl⟩, rfl, by decide, by simp⟩, rfl, rfl⟩, rfl, rfl⟩,
    by simp, ?_, by decide, by decide⟩
  rintro c ⟨e, he, rfl⟩
  rw [List.mem_singleton] at he; subst he
  decide

/-- `if (x == 1) { c.a <-- 1; }  c.b <-- 2;` -/
def halfAssigned : List Ins :=
  [.branch [.store 0 (.known 0 0) (some 1) ⟨.unknown, false⟩] [], .store 1 (.known 0 0) (some 1) ⟨.unknown, false⟩]

/-- If the condition does not hold, `c` (two inputs) gets one of them.  The C++ program runs it anyway and the wasm program never
does, so they produce different witnesses. -/
theorem C69_unassigned_violated :
    ∃ t : List Ev, trL (fun _ => 0) (analyse halfAssigned) t ∧ (∀ e ∈ t, 0 < e.amount) ∧
      cRuns false (fun _ => false) (fun _ => 2) t = some [true] ∧ wRuns (fun _ => 2) t = [false] := by
  refine ⟨[⟨.cmp 0, 1, 1, ⟨.last, false⟩⟩], ⟨[], _, Or.inr rfl, ⟨_, [], ⟨_, rfl, ⟨rfl, rfl⟩, rfl, by decide, by simp⟩, rfl, rfl⟩, rfl⟩,
    by simp, by decide, by decide⟩

/-- `if (..) { c[i].a <-- ..; }  if (..) { c[i].b <-- ..; }` with arrays whose sizes depend on the template. -/
def emptyLast : List Ins :=
  [.branch [.store 0 (.known 0 0) none ⟨.unknown, false⟩] [], .branch [.store 1 (.known 0 0) none ⟨.unknown, false⟩] []]

/-- An assignment of no element after the last input makes both programs run the component again: its counter is still 0. -/
theorem C69_empty_violated :
    ∃ t : List Ev, trL (fun _ => 0) (analyse emptyLast) t ∧ Complete (fun _ => 2) t ∧ t.map (·.comp) = [.cmp 0, .cmp 0] ∧
      cRuns false (fun _ => false) (fun _ => 2) t = some [true, true] ∧ wRuns (fun _ => 2) t = [true, true] := by
  refine ⟨[⟨.cmp 0, 2, 0, ⟨.unknown, true⟩⟩, ⟨.cmp 0, 0, 1, ⟨.unknown, true⟩⟩],
    ⟨[_], [_], Or.inl ⟨_, [], ⟨_, rfl, ⟨rfl, rfl⟩, rfl, by decide, by simp⟩, rfl, rfl⟩,
      ⟨[_], [], Or.inl ⟨_, [], ⟨_, rfl, ⟨rfl, rfl⟩, rfl, by decide, by simp⟩, rfl, rfl⟩, rfl, rfl⟩, rfl⟩, ?_, rfl, by decide, by decide⟩
  rintro c ⟨e, he, rfl⟩
  simp only [List.mem_cons, List.not_mem_nil, or_false] at he
  rcases he with rfl | rfl <;> decide

end Verif.Props.Runs
