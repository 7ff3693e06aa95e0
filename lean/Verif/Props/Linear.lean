import Verif.SimplifyLemmas

/-! # Properties C19 - C22: elimination of linear constraints -/

set_option linter.unusedSectionVars false

namespace Verif.Props.Linear
open Verif.Linear Verif.Algebra Verif.Props.Algebra
open Verif.ModArith (Res Fail)

variable {p : Nat}

/-- Spec: a linear constraint `0 = Σ vᵢ xᵢ` with distinct signals and coefficients in `(0, p)`.  This is what the
preceding phase (`fix_constraint`) delivers for linear constraints, see `C15_fix`. -/
structure CleanLinear (p : Nat) (c : C) : Prop where
  noProduct : c.a = [] ∧ c.b = []
  distinct : (c.c.map Prod.fst).Nodup
  range : ∀ e ∈ c.c, 0 < e.2 ∧ e.2 < p

theorem CleanLinear.linClean {c : C} (h : CleanLinear p c) : LinClean p c :=
  ⟨h.noProduct.1, h.noProduct.2, h.distinct, fun e he => ⟨(h.range e he).1.le, (h.range e he).2⟩,
    fun e he => (h.range e he).1.ne'⟩

/-! ## C19, C20 -/

/-- C19: default heuristic. -/
theorem C19_equivalence (hp : p.Prime) (ord : HashOrder) (hord : ord.Valid) (forbidden : List Nat) (h0 : 0 ∈ forbidden)
    (cs : List C) (hcs : ∀ c ∈ cs, CleanLinear p c) (fuel : Nat) (out : Simplified)
    (h : simplify3 ord forbidden p fuel cs = .ok out) (ρ : Nat → ZMod p) (hρ : ρ 0 = 1) :
    (∀ c ∈ cs, c.Holds ρ) ↔ (∀ c ∈ out.constraints, c.Holds ρ) ∧ ∀ s ∈ out.substitutions, s.Holds ρ :=
  (simplify3_elim_of_ok hp ord hord forbidden h0 cs (fun c hc => (hcs c hc).linClean) fuel out h).equiv ρ hρ

/-- C20: occurrence-count heuristic, every hash order. -/
theorem C20_equivalence (hp : p.Prime) (ord : HashOrder) (hord : ord.Valid) (forbidden : List Nat) (h0 : 0 ∈ forbidden)
    (cs : List C) (hcs : ∀ c ∈ cs, CleanLinear p c) (fuel : Nat) (out : Simplified)
    (h : simplify4 ord forbidden p fuel cs = .ok out) (ρ : Nat → ZMod p) (hρ : ρ 0 = 1) :
    (∀ c ∈ cs, c.Holds ρ) ↔ (∀ c ∈ out.constraints, c.Holds ρ) ∧ ∀ s ∈ out.substitutions, s.Holds ρ :=
  (simplify4_elim_of_ok hp ord hord forbidden h0 cs (fun c hc => (hcs c hc).linClean) fuel out h).equiv ρ hρ

/-- C19 and C20 for the entry point, whichever heuristic it selects. -/
theorem C20_entry_point (hp : p.Prime) (ord : HashOrder) (hord : ord.Valid) (forbidden : List Nat) (h0 : 0 ∈ forbidden)
    (old : Bool) (cs : List C) (hcs : ∀ c ∈ cs, CleanLinear p c) (fuel : Nat) (out : Simplified)
    (h : fullSimplification ord forbidden p old fuel cs = .ok out) (ρ : Nat → ZMod p) (hρ : ρ 0 = 1) :
    (∀ c ∈ cs, c.Holds ρ) ↔ (∀ c ∈ out.constraints, c.Holds ρ) ∧ ∀ s ∈ out.substitutions, s.Holds ρ :=
  (full_elim_of_ok hp ord hord forbidden h0 old cs (fun c hc => (hcs c hc).linClean) fuel out h).equiv ρ hρ

/-! ## C21 -/

/-- C21: there is a number of loop iterations after which both heuristics have stopped, without an abort, and the
result does not depend on the bound. -/
theorem C21_terminates (hp : p.Prime) (ord : HashOrder) (hord : ord.Valid) (forbidden : List Nat) (h0 : 0 ∈ forbidden)
    (cs : List C) (hcs : ∀ c ∈ cs, CleanLinear p c) :
    ∃ N out3 out4, ∀ fuel, N ≤ fuel →
      simplify3 ord forbidden p fuel cs = .ok out3 ∧ simplify4 ord forbidden p fuel cs = .ok out4 ∧
      ∀ old, fullSimplification ord forbidden p old fuel cs = .ok out3 ∨
        fullSimplification ord forbidden p old fuel cs = .ok out4 := by
  have hcl := fun c hc => (hcs c hc).linClean
  have hpos : 0 < 2 ^ (allSignals cs).length := Nat.pow_pos (by decide)
  obtain ⟨o3, h3, _⟩ := simplify3_elim hp ord hord forbidden h0 cs hcl (enough cs) (by unfold enough; exact Nat.succ_pos _) (by
      intro c hc x hx _
      have := mem_le_sum (allSignals cs) x (List.mem_flatMap.2 ⟨c, hc, hx⟩)
      unfold enough; omega)
  obtain ⟨o4, h4, _⟩ := simplify4_elim hp ord hord forbidden h0 cs hcl (enough cs) (by unfold enough; omega)
  have m3 : ∀ k, simplify3 ord forbidden p (enough cs + k) cs = .ok o3 := by
    intro k
    induction k with
    | zero => exact h3
    | succ k ih => exact simplify3_mono _ _ _ _ _ _ ih
  have m4 : ∀ k, simplify4 ord forbidden p (enough cs + k) cs = .ok o4 := by
    intro k
    induction k with
    | zero => exact h4
    | succ k ih => exact simplify4_mono _ _ _ _ _ _ ih
  refine ⟨enough cs, o3, o4, fun fuel hf => ?_⟩
  obtain ⟨k, rfl⟩ := Nat.exists_eq_add_of_le hf
  refine ⟨m3 k, m4 k, fun old => ?_⟩
  unfold fullSimplification
  split
  · exact Or.inr (m4 k)
  · exact Or.inl (m3 k)

/-- C21 for the entry point: given enough iterations it returns, without an abort. -/
theorem C21_no_abort (hp : p.Prime) (ord : HashOrder) (hord : ord.Valid) (forbidden : List Nat) (h0 : 0 ∈ forbidden)
    (cs : List C) (hcs : ∀ c ∈ cs, CleanLinear p c) (old : Bool) :
    ∃ N, ∀ fuel, N ≤ fuel → ∃ out, fullSimplification ord forbidden p old fuel cs = .ok out := by
  obtain ⟨N, o3, o4, h⟩ := C21_terminates hp ord hord forbidden h0 cs hcs
  exact ⟨N, fun fuel hf => ((h fuel hf).2.2 old).elim (fun h => ⟨_, h⟩) (fun h => ⟨_, h⟩)⟩

/-! ## C22 -/

/-- C22, for the entry point. -/
theorem C22_eliminated (hp : p.Prime) (ord : HashOrder) (hord : ord.Valid) (forbidden : List Nat) (h0 : 0 ∈ forbidden)
    (old : Bool) (cs : List C) (hcs : ∀ c ∈ cs, CleanLinear p c) (fuel : Nat) (out : Simplified)
    (h : fullSimplification ord forbidden p old fuel cs = .ok out) :
    -- the list of removed signals is the list of substituted signals, each once
    out.removed = out.substitutions.map (fun s => s.frm) ∧ out.removed.Nodup ∧
    -- protected signals stay
    (∀ s ∈ out.removed, s ∉ forbidden) ∧
    -- eliminated signals are gone from every right-hand side and every returned constraint
    (∀ s ∈ out.removed, ∀ t ∈ out.substitutions, s ∉ t.rhs.map Prod.fst) ∧
    (∀ s ∈ out.removed, ∀ c ∈ out.constraints, ¬ c.Occurs s) ∧
    -- everything that is not eliminated and still constrained linearly is protected
    (∀ c ∈ out.constraints, ∀ x, c.Occurs x → x ∈ forbidden) ∧
    -- nothing new appears
    (∀ x, ((∃ c ∈ out.constraints, c.Occurs x) ∨ (∃ t ∈ out.substitutions, x = t.frm ∨ x ∈ t.rhs.map Prod.fst)) →
      x = 0 ∨ ∃ c ∈ cs, c.Occurs x) := by
  have e := full_elim_of_ok hp ord hord forbidden h0 old cs (fun c hc => (hcs c hc).linClean) fuel out h
  have hocc : ∀ c ∈ out.constraints, ∀ x, c.Occurs x → x ∈ c.c.keys := by
    intro c hc x hx
    have := e.clean c hc
    rcases hx with hx | hx | hx
    · rw [this.a] at hx; simp at hx
    · rw [this.b] at hx; simp at hx
    · exact hx
  refine ⟨e.removed, e.nodup, e.prot, e.disjoint, ?_, ?_, ?_⟩
  · intro s hs c hc ho
    exact e.prot s hs (e.consts c hc s (hocc c hc s ho))
  · intro c hc x hx
    exact e.consts c hc x (hocc c hc x hx)
  · intro x hx
    have : x = 0 ∨ ∃ c ∈ cs, x ∈ c.c.keys := e.noNew x (hx.imp (fun ⟨c, hc, h⟩ => ⟨c, hc, hocc c hc x h⟩) id)
    exact this.imp id fun ⟨c, hc, h⟩ => ⟨c, hc, Or.inr (Or.inr h)⟩

/-! ## Concrete case: four equations over the field with 7 elements, signals 0 and 1 protected -/

/-- 2x₂ + 3x₃ + 1 = 0, x₃ + 6x₁ = 0, 5x₄ + x₂ + x₃ = 0, x₄ + 4x₁ + 2 = 0. -/
def sample : List C := [⟨[], [], [(2, 2), (3, 3), (0, 1)]⟩, ⟨[], [], [(3, 1), (1, 6)]⟩,
  ⟨[], [], [(4, 5), (2, 1), (3, 1)]⟩, ⟨[], [], [(4, 1), (1, 4), (0, 2)]⟩]

theorem sample_clean : ∀ c ∈ sample, CleanLinear 7 c := by
  intro c hc
  simp only [sample, List.mem_cons, List.not_mem_nil, or_false] at hc
  rcases hc with rfl | rfl | rfl | rfl <;>
    exact ⟨⟨rfl, rfl⟩, by decide, by decide⟩

def sampleOrder : HashOrder := fun n m => if n % 2 = 0 then m.keys else m.keys.reverse

theorem sampleOrder_valid : sampleOrder.Valid := by
  intro n m
  unfold sampleOrder
  split
  · exact List.Perm.refl _
  · exact List.reverse_perm _

/-- The hypotheses of C19-C22 hold here; three signals are eliminated and one constraint on the protected signal 1
remains. -/
example : (∀ c ∈ sample, CleanLinear 7 c) ∧ sampleOrder.Valid ∧
    (∃ out, simplify3 sampleOrder [0, 1] 7 10 sample = .ok out ∧ out.removed.Perm [2, 3, 4] ∧ out.constraints.length = 1) ∧
    (∃ out, simplify4 sampleOrder [0, 1] 7 20 sample = .ok out ∧ out.removed.Perm [2, 3, 4] ∧
      out.constraints.length = 1) ∧
    ∃ out, fullSimplification sampleOrder [0, 1] 7 false 10 sample = .ok out ∧ out.removed.length = 3 :=
  ⟨sample_clean, sampleOrder_valid, ⟨_, rfl, by decide +kernel, by decide +kernel⟩,
    ⟨_, rfl, by decide +kernel, by decide +kernel⟩, ⟨_, rfl, by decide +kernel⟩⟩

end Verif.Props.Linear
