import Verif.CopyLemmas
import Verif.Memory

/-!
# C68: a store copies exactly the elements that fit

Full statement: for every destination and source size, known at compile time or depending on the template of the accessed
component, both witness programs copy the smaller number of elements from the source to the destination, in order, change
nothing else, and lower the counter of missing inputs of a sub-component by this number, starting the component exactly when
the counter becomes zero by this store.

It fails: the C++ code copies one element when the compile-time size is zero (`C68_cpp_violated`), the wasm code takes the size
of the source instead of the minimum when a size depends on the template (`C68_wasm_violated`) and starts a component again by
an empty store of template dependent size (`C68_rerun_violated`).  Sizes can differ for variables only: there the executor
accepts them with a warning (C61), and then even the minimum is not what it computes (`C68_shape_violated`).
-/

set_option linter.unusedSimpArgs false
set_option linter.unusedVariables false

namespace Verif.Props.Copy

open Verif.Copy

/-- `m'` is `m` after copying `n` elements from `src` to `dst`; neighbours are `fs` apart. -/
def Copied (fs : Int) (n : Nat) (dst src : Int) (m m' : Mem) : Prop :=
  (∀ i : Nat, i < n → m' (dst + i * fs) = m (src + i * fs)) ∧ ∀ a, (∀ i : Nat, i < n → a ≠ dst + i * fs) → m' a = m a

/-- No element is both source and destination. -/
def Apart (fs : Int) (n : Nat) (dst src : Int) : Prop :=
  ∀ i j : Nat, i < n → j < n → src + i * fs ≠ dst + j * fs

/-- C68 for the C++ programs; missing: a size of zero known at compile time. -/
theorem C68_cpp_partial (d z : Size) (td ts : Nat) (dst src : Int) (m : Mem)
    (h : min (d.at td) (z.at ts) = 0 → ∃ vs, d = .multiple vs ∨ z = .multiple vs)
    (hap : Apart 1 (min (d.at td) (z.at ts)) dst src) :
    Copied 1 (min (d.at td) (z.at ts)) dst src m (cCopy d z td ts dst src m) ∧ cSize d z td ts = min (d.at td) (z.at ts) := by
  have hsz : cSize d z td ts = min (d.at td) (z.at ts) := by cases d <;> cases z <;> rfl
  refine ⟨?_, hsz⟩
  have hm : cCopy d z td ts dst src m = putN 1 (min (d.at td) (z.at ts)) dst src m := by
    rcases d with a | v <;> rcases z with b | w
    · simp only [Size.at] at h ⊢
      simp only [cCopy, cText]
      by_cases h0 : min a b = 0
      · obtain ⟨vs, hc | hc⟩ := h h0 <;> simp at hc
      · by_cases h1 : min a b = 1
        · simp [h1, putN]
        · simp [h0, h1]
    · rfl
    · rfl
    · rfl
  rw [hm]
  exact ⟨putN_inside 1 (by decide) _ dst src m hap, fun a ha => putN_outside 1 _ dst src m a ha⟩

/-- Three elements of a destination with room for four. -/
example : cCopy (.single 4) (.single 3) 0 0 10 20 id 12 = 22 ∧ cCopy (.single 4) (.single 3) 0 0 10 20 id 13 = 13 := by
  decide

/-- The element after an empty destination is overwritten by the C++ code. -/
theorem C68_cpp_violated : ∃ (dst src : Int) (m : Mem), cSize (.single 0) (.single 0) 0 0 = 0 ∧
    cCopy (.single 0) (.single 0) 0 0 dst src m dst ≠ m dst :=
  ⟨0, 1, id, by decide, by decide⟩

/-- C68 for the wasm programs.  Missing: template dependent sizes with a source larger than the destination, and an empty
source for a destination of one element.  `fs` is the number of bytes of an element, `sub` says that the destination is an
input of a sub-component. -/
theorem C68_wasm_partial (c : Cfg) (fuel : Nat) (fs : Int) (sub : Bool) (d z : Size) (s : St) (hfs : 0 < fs)
    (h : (∃ a b, d = .single a ∧ z = .single b) ∨ (z.at c.ts ≤ d.at c.td ∧ (d = .single 1 → z.at c.ts ≠ 0)))
    (hfuel : min (d.at c.td) (z.at c.ts) < fuel) (hap : Apart fs (min (d.at c.td) (z.at c.ts)) c.dst c.src) :
    ∃ s', exec c fuel (wStore fs sub d z) s = some (none, s') ∧ s'.stack = s.stack ∧
      Copied fs (min (d.at c.td) (z.at c.ts)) c.dst c.src s.mem s'.mem ∧
      s'.ctr = (if sub then s.ctr - (min (d.at c.td) (z.at c.ts) : Nat) else s.ctr) ∧
      (0 < min (d.at c.td) (z.at c.ts) →
        s'.runs = if sub ∧ s.ctr = (min (d.at c.td) (z.at c.ts) : Nat) then s.runs + 1 else s.runs) ∧
      (∀ a b, d = .single a → z = .single b → min a b = 0 → s' = s) := by
  by_cases hl : listed d = 0 ∨ listed z = 0
  · have hmin : min (d.at c.td) (z.at c.ts) = 0 := by
      rcases hl with hl | hl
      · have : d.at c.td = 0 := by
          rcases d with a | v
          · exact hl
          · simp only [listed, List.length_eq_zero_iff] at hl; subst hl; rfl
        omega
      · have : z.at c.ts = 0 := by
          rcases z with a | v
          · exact hl
          · simp only [listed, List.length_eq_zero_iff] at hl; subst hl; rfl
        omega
    refine ⟨s, by rw [wStore, if_pos hl]; rfl, rfl, ?_, ?_, ?_, fun _ _ _ _ _ => rfl⟩
    · rw [hmin]; exact ⟨fun i hi => absurd hi (by omega), fun _ _ => rfl⟩
    · rw [hmin]; simp
    · rw [hmin]; intro h0; omega
  · have hn : wCount d z c.td c.ts = min (d.at c.td) (z.at c.ts) := by
      simp only [wCount, if_neg hl]
      rcases h with ⟨a, b, rfl, rfl⟩ | ⟨h1, h2⟩
      · simp only [listed, not_or] at hl
        by_cases ho : oneElem (.single a) (.single b) = true
        · simp only [ho, Size.at]
          simp [oneElem] at ho
          simp; omega
        · simp [ho, Size.at]
      · by_cases ho : oneElem d z = true
        · simp only [ho]
          simp only [oneElem, Bool.or_eq_true, decide_eq_true_eq] at ho
          rcases ho with rfl | rfl
          · have := h2 rfl
            simp only [Size.at] at h1 this ⊢
            simp; omega
          · simp only [Size.at] at h1 ⊢
            simp; omega
        · rw [if_neg ho, Nat.min_eq_right h1]
          rcases d with a | v <;> rcases z with b | w
          · simp only [Size.at] at h1 ⊢; omega
          · rfl
          · rfl
          · rfl
    rw [not_or] at hl
    obtain ⟨loc', he⟩ := wStore_run c fuel fs sub d z s hl.1 hl.2 (by rw [hn]; exact hfuel)
    rw [hn] at he
    refine ⟨_, he, rfl, ⟨putN_inside fs hfs _ _ _ _ hap, fun a ha => putN_outside fs _ _ _ _ a ha⟩, rfl, ?_, ?_⟩
    · intro _
      have : (s.ctr - ((min (d.at c.td) (z.at c.ts) : Nat) : Int) = 0) = (s.ctr = ((min (d.at c.td) (z.at c.ts) : Nat) : Int)) := by
        apply propext; omega
      simp only [this]
    · rintro a b rfl rfl h0
      simp only [listed] at hl
      omega

/-- A component whose last two inputs are set: three template dependent elements, two of them wanted. -/
example : (match exec ⟨100, 200, 7, 0⟩ 5 (wStore 4 true (.multiple [(3, 5), (7, 3)]) (.single 2)) ⟨[], fun _ => 0, id, 2, 0⟩ with
    | some (none, s) => decide (s.mem 100 = 200 ∧ s.mem 104 = 204 ∧ s.mem 108 = 108 ∧ s.ctr = 0 ∧ s.runs = 1)
    | _ => false) = true := by decide +kernel

/-- The wasm code copies three elements of a component of template 7 into a variable with two: the element behind the variable
is overwritten. -/
theorem C68_wasm_violated : ∃ (c : Cfg) (d z : Size) (s s' : St), min (d.at c.td) (z.at c.ts) = 2 ∧
    exec c 5 (wStore 4 false d z) s = some (none, s') ∧ s'.mem (c.dst + 2 * 4) ≠ s.mem (c.dst + 2 * 4) := by
  refine ⟨⟨100, 200, 0, 7⟩, .single 2, .multiple [(6, 2), (7, 3)], ⟨[], fun _ => 0, id, 5, 0⟩, ?_⟩
  obtain ⟨loc', he⟩ := wStore_run ⟨100, 200, 0, 7⟩ 5 4 false (.single 2) (.multiple [(6, 2), (7, 3)]) ⟨[], fun _ => 0, id, 5, 0⟩
    (by decide) (by decide) (by decide)
  refine ⟨_, by decide, he, ?_⟩
  show putN 4 3 100 200 id 108 ≠ 108
  decide

/-- `a = b` for a variable `a[2][3]` and a value `b[2][2]`: the executor keeps `a[0][2]`, both programs put `b[1][0]` there. -/
theorem C68_shape_violated : ∃ (a b a' : Verif.Memory.Slice Int) (m : Mem) (s' : St),
    (∀ i : Nat, i < a.values.length → some (m i) = a.values[i]?) ∧
    (∀ i : Nat, i < b.values.length → some (m (100 + i)) = b.values[i]?) ∧
    Verif.Memory.insertValues a [] b false = .ok (a', .error (.mismatchedWeak 2 3)) ∧
    exec ⟨0, 100, 0, 0⟩ 9 (wStore 1 false (.single 6) (.single 4)) ⟨[], fun _ => 0, m, 0, 0⟩ = some (none, s') ∧
    a'.values[2]? = some 12 ∧ s'.mem 2 = 3 ∧ cCopy (.single 6) (.single 4) 0 0 0 100 m 2 = 3 := by
  refine ⟨⟨[2, 3], [10, 11, 12, 13, 14, 15]⟩, ⟨[2, 2], [1, 2, 3, 4]⟩, ⟨[2, 3], [1, 2, 12, 3, 4, 15]⟩,
    fun a => if a < 100 then a + 10 else a - 99, ?_⟩
  obtain ⟨loc', he⟩ := wStore_run ⟨0, 100, 0, 0⟩ 9 1 false (.single 6) (.single 4)
    ⟨[], fun _ => 0, fun a => if a < 100 then a + 10 else a - 99, 0, 0⟩ (by decide) (by decide) (by decide)
  refine ⟨_, by decide, by decide, by decide, he, by decide, ?_, by decide⟩
  show putN 1 4 0 100 (fun a => if a < 100 then a + 10 else a - 99) 2 = 3
  decide

/-- An empty store of template dependent size starts a component that already has all inputs. -/
theorem C68_rerun_violated : ∃ (c : Cfg) (d z : Size) (s s' : St), min (d.at c.td) (z.at c.ts) = 0 ∧ s.ctr = 0 ∧
    exec c 5 (wStore 4 true d z) s = some (none, s') ∧ s'.runs = s.runs + 1 := by
  refine ⟨⟨100, 200, 7, 8⟩, .multiple [(7, 0), (9, 1)], .multiple [(8, 0), (10, 1)], ⟨[], fun _ => 0, id, 0, 0⟩, ?_⟩
  obtain ⟨loc', he⟩ := wStore_run ⟨100, 200, 7, 8⟩ 5 4 true (.multiple [(7, 0), (9, 1)]) (.multiple [(8, 0), (10, 1)])
    ⟨[], fun _ => 0, id, 0, 0⟩ (by decide) (by decide) (by decide)
  refine ⟨_, by decide, rfl, he, ?_⟩
  show (if true = true ∧ (0 : Int) - ((0 : Nat) : Int) = 0 then 0 + 1 else 0) = 0 + 1
  decide

end Verif.Props.Copy
