import Verif.Linear
import Verif.BMapLemmas
import Verif.Props.Algebra
import Verif.Props.ModArith

/-! Helper lemmas for the linear elimination model (one-step facts). -/

set_option linter.unusedSectionVars false

namespace Verif.Linear
open Verif.ModArith (Res Fail)
open Verif.Algebra Verif.Props.Algebra

variable {p : Nat}

/-- A cleaned linear constraint: only the `c` part, distinct keys, canonical non-zero coefficients. -/
structure LinClean (p : Nat) (k : C) : Prop where
  a : k.a = []
  b : k.b = []
  wf : k.c.WF
  canon : CanonMap p k.c
  nz : NoZero k.c

theorem LinClean.holds {k : C} (h : LinClean p k) (ρ : Nat → ZMod p) : k.Holds ρ ↔ ev ρ k.c = 0 := by
  unfold Constraint.Holds
  rw [h.a, h.b, ev_nil, zero_mul]
  exact eq_comm

theorem LinClean.linear {k : C} (h : LinClean p k) : k.isLinear = true := by
  simp [Constraint.isLinear, h.a, h.b]

theorem LinClean.isEmpty_iff {k : C} (h : LinClean p k) : k.isEmpty = true ↔ k.c = [] := by
  simp [Constraint.isEmpty, h.a, h.b, List.isEmpty_iff]

/-- Right-hand sides: distinct keys, canonical coefficients, constant key present. -/
structure Rhs (p : Nat) (m : CMap Nat) : Prop where
  valid : ValidMap m
  canon : CanonMap p m

/-- An expression that is a number or a valid linear map over keys in `X`, with value `f`. -/
def LinE (p : Nat) (X : Nat → Prop) (e : AExpr Nat) (f : (Nat → ZMod p) → ZMod p) : Prop :=
  (∃ v : Int, e = .number v ∧ ∀ ρ, f ρ = (v : ZMod p)) ∨
  (∃ m, e = .linear m ∧ Rhs p m ∧ (∀ x ∈ m.keys, x = 0 ∨ X x) ∧ ∀ ρ, ρ 0 = 1 → f ρ = ev ρ m)

theorem initConst_of_valid {m : CMap Nat} (h : ValidMap m) : initConst m = m := by
  unfold initConst; rw [if_pos h.2]

/-- Value of a linear map, normalised so that it also makes sense when the constant wire is not one. -/
theorem linE_mapIntoArith {m : CMap Nat} (h : Rhs p m) (X : Nat → Prop) (hX : ∀ x ∈ m.keys, x = 0 ∨ X x) :
    (∃ v : Int, m = [(0, v)] ∧ mapIntoArith m = .number v) ∨ mapIntoArith m = .linear m := by
  unfold mapIntoArith
  split
  · rename_i k v
    have h0 := (CMap.contains_iff _ _).1 h.valid.2
    simp only [CMap.keys, List.map_cons, List.map_nil, List.mem_singleton] at h0
    have h1 : k = 0 := h0.symm
    subst h1
    left; exact ⟨v, rfl, by simp⟩
  · right; rw [initConst_of_valid h.valid]

theorem linE_scale (hp : 0 < p) {m : CMap Nat} (h : Rhs p m) (X : Nat → Prop) (hX : ∀ x ∈ m.keys, x = 0 ∨ X x) (c : Int) :
    (∃ v : Int, Algebra.mul (.number c) (mapIntoArith m) p = .number v ∧
      ∀ ρ : Nat → ZMod p, ρ 0 = 1 → (v : ZMod p) = (c : ZMod p) * ev ρ m) ∨
    (∃ m', Algebra.mul (.number c) (mapIntoArith m) p = .linear m' ∧ Rhs p m' ∧ (∀ x ∈ m'.keys, x = 0 ∨ X x) ∧
      ∀ ρ : Nat → ZMod p, ev ρ m' = (c : ZMod p) * ev ρ m) := by
  rcases linE_mapIntoArith h X hX with ⟨v, hm, he⟩ | he
  · left
    refine ⟨_, by rw [he]; rfl, fun ρ hρ => ?_⟩
    rw [ModArith.mul_cast _ _ _ hp, hm, ev_cons, ev_nil, hρ]; ring
  · right
    refine ⟨_, by rw [he]; rfl, ⟨validMap_mulCoefs h.valid _ _, canon_mulCoefs hp _ _⟩, ?_, fun ρ => ?_⟩
    · rw [keys_mulCoefs]; exact hX
    · rw [ev_mulCoefs hp]; try ring

/-- The constraint form of a number or of a valid linear map, after dropping zero coefficients. -/
theorem linE_constraint (hp : 0 < p) {e : AExpr Nat} {X : Nat → Prop} {g : (Nat → ZMod p) → ZMod p}
    (h : (∃ v : Int, e = .number v ∧ ∀ ρ : Nat → ZMod p, ρ 0 = 1 → (v : ZMod p) = g ρ) ∨
      (∃ m, e = .linear m ∧ Rhs p m ∧ (∀ x ∈ m.keys, x = 0 ∨ X x) ∧ ∀ ρ : Nat → ZMod p, ρ 0 = 1 → ev ρ m = g ρ)) :
    ∃ k, toConstraint e p = some k ∧ LinClean p k.removeZeros ∧ (∀ x ∈ k.removeZeros.c.keys, x = 0 ∨ X x) ∧
      ∀ ρ : Nat → ZMod p, ρ 0 = 1 → (k.removeZeros.Holds ρ ↔ g ρ = 0) := by
  have hz : Algebra.removeZeros (zeroMap : CMap Nat) = [] := by decide
  have main : ∀ m : CMap Nat, m.WF → (∀ x ∈ m.keys, x = 0 ∨ X x) →
      (∀ ρ : Nat → ZMod p, ρ 0 = 1 → ev ρ m = g ρ) →
      let k : C := ⟨zeroMap, zeroMap, mulCoefs (-1) m p⟩
      LinClean p k.removeZeros ∧ (∀ x ∈ k.removeZeros.c.keys, x = 0 ∨ X x) ∧
      ∀ ρ : Nat → ZMod p, ρ 0 = 1 → (k.removeZeros.Holds ρ ↔ g ρ = 0) := by
    intro m hw hX hg k
    have hl : LinClean p k.removeZeros :=
      ⟨hz, hz, wf_removeZeros (wf_mulCoefs hw _ _), canon_removeZeros (canon_mulCoefs hp _ _), noZero_removeZeros _⟩
    refine ⟨hl, ?_, fun ρ hρ => ?_⟩
    · intro x hx
      have := keys_removeZeros_sub hx
      rw [keys_mulCoefs] at this
      exact hX x this
    · rw [hl.holds]
      have : ev ρ k.removeZeros.c = -g ρ := by
        show ev ρ (Algebra.removeZeros (mulCoefs (-1) m p)) = _
        rw [ev_removeZeros, ev_mulCoefs hp, hg ρ hρ]; push_cast; ring
      rw [this, neg_eq_zero]
  rcases h with ⟨v, rfl, hv⟩ | ⟨m, rfl, hm, hX, hg⟩
  · refine ⟨_, rfl, ?_⟩
    have h1 : (zeroMap : CMap Nat).insert default v = [(0, v)] := rfl
    rw [h1]
    refine main [(0, v)] (by simp [CMap.WF, CMap.keys]) (by intro x hx; left; simpa [CMap.keys] using hx) ?_
    intro ρ hρ
    rw [ev_cons, ev_nil, hρ, ← hv ρ hρ]; ring
  · exact ⟨_, rfl, main m hm.valid.1 hX hg⟩

/-- One elimination of a signal solved twice. -/
theorem merge_spec (hp : 0 < p) (coL coR : Int) (sL sR : S) (hL : Rhs p sL.rhs) (hR : Rhs p sR.rhs) :
    ∃ k, merge coL sL coR sR p = .ok k ∧ LinClean p k ∧
      (∀ x ∈ k.c.keys, x = 0 ∨ x ∈ sL.rhs.keys ∨ x ∈ sR.rhs.keys) ∧
      ∀ ρ : Nat → ZMod p, ρ 0 = 1 →
        (k.Holds ρ ↔ (coR : ZMod p) * ev ρ sL.rhs = (coL : ZMod p) * ev ρ sR.rhs) := by
  let X : Nat → Prop := fun x => x ∈ sL.rhs.keys ∨ x ∈ sR.rhs.keys
  let g : (Nat → ZMod p) → ZMod p := fun ρ => (coR : ZMod p) * ev ρ sL.rhs - (coL : ZMod p) * ev ρ sR.rhs
  have key : ∃ e, Algebra.sub (Algebra.mul (.number coR) (mapIntoArith sL.rhs) p)
      (Algebra.mul (.number coL) (mapIntoArith sR.rhs) p) p = .ok e ∧
      ((∃ v : Int, e = .number v ∧ ∀ ρ : Nat → ZMod p, ρ 0 = 1 → (v : ZMod p) = g ρ) ∨
      (∃ m, e = .linear m ∧ Rhs p m ∧ (∀ x ∈ m.keys, x = 0 ∨ X x) ∧ ∀ ρ : Nat → ZMod p, ρ 0 = 1 → ev ρ m = g ρ)) := by
    rcases linE_scale hp hL X (fun x hx => Or.inr (Or.inl hx)) coR with ⟨v, e1, hv⟩ | ⟨m, e1, hm, hmX, hme⟩ <;>
    rcases linE_scale hp hR X (fun x hx => Or.inr (Or.inr hx)) coL with ⟨w, e2, hw⟩ | ⟨n, e2, hn, hnX, hne⟩
    · rw [e1, e2]
      refine ⟨_, rfl, Or.inl ⟨_, rfl, fun ρ hρ => ?_⟩⟩
      rw [ModArith.add_cast _ _ _ hp, ModArith.mul_cast _ _ _ hp, hv ρ hρ, hw ρ hρ]
      simp only [g]; push_cast; ring
    · rw [e1, e2]
      obtain ⟨q, hq, h1, h2, h3, h4⟩ := addConst_spec hp (validMap_mulCoefs hn.valid (-1) p) v
      refine ⟨.linear q, by simp only [Algebra.sub, Algebra.mul, Algebra.add, hq, ok_bind], Or.inr ⟨q, rfl, ⟨h1, ?_⟩, ?_, ?_⟩⟩
      · exact h2 (canon_mulCoefs hp _ _)
      · intro x hx; rw [h4, keys_mulCoefs] at hx; exact hnX x hx
      · intro ρ hρ
        rw [h3 ρ hρ, ev_mulCoefs hp, hne, hv ρ hρ]; simp only [g]; push_cast; ring
    · rw [e1, e2]
      obtain ⟨q, hq, h1, h2, h3, h4⟩ := addConst_spec hp hm.valid (ModArith.mul (-1) w p)
      refine ⟨.linear q, by simp only [Algebra.sub, Algebra.mul, Algebra.add, hq, ok_bind], Or.inr ⟨q, rfl, ⟨h1, ?_⟩, ?_, ?_⟩⟩
      · exact h2 hm.canon
      · intro x hx; rw [h4] at hx; exact hmX x hx
      · intro ρ hρ
        rw [h3 ρ hρ, ModArith.mul_cast _ _ _ hp, hme, hw ρ hρ]; simp only [g]; push_cast; ring
    · rw [e1, e2]
      refine ⟨_, rfl, Or.inr ⟨_, rfl, ⟨validMap_addCoefs _ (validMap_mulCoefs hn.valid _ _) _,
        canon_addCoefs hp _ (canon_mulCoefs hp _ _)⟩, ?_, ?_⟩⟩
      · intro x hx
        rcases (mem_keys_addCoefs _ _ _ _).1 hx with h | h
        · exact hmX x h
        · rw [keys_mulCoefs] at h; exact hnX x h
      · intro ρ hρ
        rw [ev_addCoefs hp, ev_mulCoefs hp, hme, hne]; simp only [g]; push_cast; ring
  obtain ⟨e, he, hE⟩ := key
  obtain ⟨k, hk, hcl, hkX, hkh⟩ := linE_constraint hp hE
  refine ⟨k.removeZeros, ?_, hcl, hkX, fun ρ hρ => ?_⟩
  · show (Algebra.sub (Algebra.mul (.number coR) (mapIntoArith sL.rhs) p)
      (Algebra.mul (.number coL) (mapIntoArith sR.rhs) p) p >>= _) = _
    rw [he, ok_bind, hk]
  · rw [hkh ρ hρ]; exact sub_eq_zero

/-- Isolating a signal of a cleaned linear constraint. -/
theorem clearNN_spec (hp : 0 < p) {k : C} (hk : LinClean p k) {s : Nat} (hs : s ∈ k.c.keys) (hs0 : s ≠ 0) :
    ∃ co t, k.clearSignalFromLinearNN s p = .ok (co, t) ∧ t.frm = s ∧ Rhs p t.rhs ∧
      (∀ x, x ∈ t.rhs.keys ↔ x = 0 ∨ (x ≠ s ∧ x ∈ k.c.keys)) ∧ (co : ZMod p) ≠ 0 ∧ (0 ≤ co ∧ co < p) ∧
      ∀ ρ : Nat → ZMod p, k.Holds ρ ↔ (co : ZMod p) * ρ s = ev ρ t.rhs := by
  obtain ⟨v, hv⟩ := Option.isSome_iff_exists.1 ((CMap.get_isSome_iff _ _).2 hs)
  have hv0 : v ≠ 0 := hk.nz _ (CMap.get_mem hv)
  obtain ⟨co, t, h1, h2, _, h4, h5, h6, h7⟩ := C16_clear_signal_nn hp k hk.linear hk.wf hk.canon hk.nz s hs hs0
  have h1' := h1
  simp only [Constraint.clearSignalFromLinearNN, clearSignalNN, hv, if_neg hv0, ok_bind] at h1'
  injection h1' with h1'
  injection h1' with e1 e2
  subst e1; subst e2
  refine ⟨_, _, h1, rfl, ⟨validMap_initConst (CMap.wf_remove hk.wf _), h6⟩, ?_, h4, mod_range hp _, h7⟩
  intro x
  rw [mem_keys_initConst, CMap.mem_keys_remove]
  rfl

end Verif.Linear
