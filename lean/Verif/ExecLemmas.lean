import Verif.Exec
import Verif.Props.Algebra
import Verif.Props.ModArith

/-!
Lemmas for the executor: soundness of expression evaluation with respect to the concrete semantics.
-/

set_option linter.unusedSectionVars false
set_option linter.unusedSimpArgs false

namespace Verif.Exec

open Verif.ModArith Verif.Algebra
open Verif.Props.Algebra (ok_bind error_bind bind_ok_iff Computes)
open Verif.Props.ModArith (Canonical)

variable {p : Nat}

/-- A symbolic value stands for a concrete one. -/
structure RelV (p : Nat) (ρ : Nat → ZMod p) (a : V) (c : Int) : Prop where
  canon : 0 ≤ c ∧ c < p
  valid : a.Valid p
  value : a = .nonQuadratic ∨ a.value ρ = some (c : ZMod p)
  number : ∀ v, a = .number v → v = c

theorem RelV.nonQuadratic {ρ : Nat → ZMod p} {c : Int} (h : 0 ≤ c ∧ c < p) :
    RelV p ρ .nonQuadratic c := ⟨h, trivial, .inl rfl, by intro v h; cases h⟩

theorem RelV.num {ρ : Nat → ZMod p} {c : Int} (h : 0 ≤ c ∧ c < p) : RelV p ρ (.number c) c :=
  ⟨h, trivial, .inr rfl, by intro v h; injection h with h; exact h.symm⟩

theorem bit_canon (hp : 1 < p) {c : Int} (h : c = 0 ∨ c = 1) : 0 ≤ c ∧ c < p := by omega

theorem not_bit (a f : Int) : ModArith.not a f = 0 ∨ ModArith.not a f = 1 := by
  unfold ModArith.not ModArith.normalize
  split <;> decide

theorem boolAnd_bit (a b f : Int) : boolAnd a b f = 0 ∨ boolAnd a b f = 1 := by
  unfold boolAnd ModArith.normalize
  split <;> split <;> decide

theorem boolOr_bit (a b f : Int) : boolOr a b f = 0 ∨ boolOr a b f = 1 := by
  unfold boolOr boolAnd ModArith.normalize
  split <;> split <;> decide

theorem div_canon {a b c : Int} (hp : 0 < p) (h : ModArith.div a b p = .ok c) : 0 ≤ c ∧ c < p := by
  unfold ModArith.div at h
  split at h
  · cases h
  · injection h with h
    subst h
    exact mod_range hp _

theorem pow_canon {a b c : Int} (hp : 0 < p) (h : ModArith.pow a b p = .ok c) : 0 ≤ c ∧ c < p := by
  unfold ModArith.pow at h
  split at h
  · cases h
  · injection h with h
    subst h
    exact modpow_range _ _ (by exact_mod_cast hp)

theorem idiv_canon {a b c : Int} (hp : 0 < p) (h : ModArith.idiv a b p = .ok c) : 0 ≤ c ∧ c < p := by
  have hpz : (0 : Int) < p := by exact_mod_cast hp
  by_cases hb : b ≡ 0 [ZMOD p]
  · rw [Verif.Props.ModArith.C03_idiv_zero a b p hpz hb] at h; cases h
  · obtain ⟨q, r, h1, _, _, _, _, h2, h3⟩ := Verif.Props.ModArith.C03_idiv_mod a b p hpz hb
    rw [h1] at h; injection h with h; subst h
    exact ⟨h2, h3⟩

theorem mod_canon {a b c : Int} (hp : 0 < p) (h : ModArith.modOp a b p = .ok c) : 0 ≤ c ∧ c < p := by
  have hpz : (0 : Int) < p := by exact_mod_cast hp
  by_cases hb : b ≡ 0 [ZMOD p]
  · rw [(Verif.Props.ModArith.C04_mod_zero_violated a b p hpz hb).1] at h; cases h
  · obtain ⟨r, h1, h2⟩ := Verif.Props.ModArith.C04_mod_nonzero_partial a b p hpz hb
    rw [h1] at h; injection h with h; subst h
    exact h2

theorem tdiv_canon {a : Int} {k : Nat} (ha : 0 ≤ a ∧ a < p) :
    0 ≤ a.tdiv (2 ^ k) ∧ a.tdiv (2 ^ k) < p := by
  rw [Int.tdiv_eq_ediv_of_nonneg ha.1]
  refine ⟨Int.ediv_nonneg ha.1 (by positivity), ?_⟩
  exact lt_of_le_of_lt (Int.ediv_le_self _ ha.1) ha.2

theorem shift_small_canon {d : Bool} {a b c : Int} (hp : 0 < p) (ha : 0 ≤ a ∧ a < p)
    (hb : b ≤ (p : Int).tdiv 2) (h : shift d a b p = .ok c) : 0 ≤ c ∧ c < p := by
  rw [shift_small d a b p hb] at h
  revert h
  cases toUsize b with
  | none => intro h; cases h
  | some k =>
    cases d
    · intro h
      injection h with h; subst h
      exact tdiv_canon ha
    · intro h
      injection h with h; subst h
      exact mod_range hp _

theorem shift_canon {d : Bool} {a b c : Int} (hp : 0 < p) (ha : 0 ≤ a ∧ a < p)
    (h : shift d a b p = .ok c) : 0 ≤ c ∧ c < p := by
  by_cases hb : b ≤ (p : Int).tdiv 2
  · exact shift_small_canon hp ha hb h
  · rw [shift_big d a b p hb] at h
    refine shift_small_canon hp ha ?_ h
    have := Int.mul_tdiv_add_tmod (p : Int) 2
    have h2 : (p : Int).tmod 2 < 2 := Int.tmod_lt_of_pos _ (by decide)
    omega

theorem optOf_some {α : Type} {x : Res α} {a : α} : optOf x = some a ↔ x = .ok a := by
  cases x <;> simp [optOf]

theorem cOp_canon (hp : 1 < p) (op : Op) {a b c : Int} (ha : 0 ≤ a ∧ a < p)
    (h : cOp op a b p = some c) : 0 ≤ c ∧ c < p := by
  have hp0 : 0 < p := by omega
  cases op <;> simp only [cOp, optOf_some, Option.some.injEq] at h <;>
    first
    | exact div_canon hp0 h
    | exact pow_canon hp0 h
    | exact idiv_canon hp0 h
    | exact mod_canon hp0 h
    | exact shift_canon hp0 ha h
    | (subst h
       first
       | exact mod_range hp0 _
       | exact bit_canon hp (boolOr_bit _ _ _)
       | exact bit_canon hp (not_bit _ _)
       | exact bit_canon hp (boolAnd_bit _ _ _)
       | exact bit_canon hp (eq_bit _ _ _)
       | exact bit_canon hp (lesser_bit _ _ _))

theorem cUOp_canon (hp : 1 < p) (op : UOp) (a : Int) : 0 ≤ cUOp op a p ∧ cUOp op a p < p := by
  cases op
  · exact bit_canon hp (not_bit _ _)
  · exact mod_range (by omega) _
  · exact mod_range (by omega) _

theorem addConst_bind_number {f : CMap Nat → Res V} (hf : ∀ m v, f m ≠ .ok (.number v)) (c : Int)
    (m : CMap Nat) (field : Int) (v : Int) : (addConst c m field >>= f) ≠ .ok (.number v) := by
  intro h
  obtain ⟨m', _, h2⟩ := (bind_ok_iff _ _ _).1 h
  exact hf _ _ h2

theorem divCoefs_bind_number {f : CMap Nat → Res V} (hf : ∀ m v, f m ≠ .ok (.number v)) (c : Int)
    (m : CMap Nat) (field : Int) (v : Int) : (divCoefs c m field >>= f) ≠ .ok (.number v) := by
  intro h
  obtain ⟨m', _, h2⟩ := (bind_ok_iff _ _ _).1 h
  exact hf _ _ h2

theorem add_number {l r : V} {field v : Int} (h : Algebra.add l r field = .ok (.number v)) :
    ∃ a b, l = .number a ∧ r = .number b := by
  cases l <;> cases r <;> simp only [Algebra.add] at h <;>
    first
    | exact ⟨_, _, rfl, rfl⟩
    | cases h
    | exact absurd h (addConst_bind_number (by intros; simp) _ _ _ _)

theorem mul_number {l r : V} {field v : Int} (h : Algebra.mul l r field = .number v) :
    ∃ a b, l = .number a ∧ r = .number b := by
  cases l <;> cases r <;> simp only [Algebra.mul] at h <;>
    first
    | exact ⟨_, _, rfl, rfl⟩
    | cases h

theorem applyOp_number (op : Op) {l r : V} {field v : Int}
    (h : applyOp op l r field = .ok (.number v)) : ∃ a b, l = .number a ∧ r = .number b := by
  cases op
  case add => exact add_number h
  case sub =>
    obtain ⟨a, b, h1, h2⟩ := add_number h
    obtain ⟨_, b', _, h3⟩ := mul_number h2
    exact ⟨_, _, h1, h3⟩
  case mul =>
    simp only [applyOp] at h
    injection h with h
    exact mul_number h
  case div =>
    cases l <;> cases r <;> simp only [applyOp, Algebra.div] at h <;>
      first
      | exact ⟨_, _, rfl, rfl⟩
      | cases h
      | exact absurd h (divCoefs_bind_number (by
          intro m v h
          first
          | cases h
          | exact absurd h (divCoefs_bind_number (by intros; simp) _ _ _ _)) _ _ _ _)
  case pow =>
    cases l <;> cases r <;> simp only [applyOp, Algebra.pow] at h <;>
      first
      | exact ⟨_, _, rfl, rfl⟩
      | cases h
      | (split at h <;> cases h)
  all_goals
    cases l <;> cases r <;> simp only [applyOp, numOp, numOpR] at h <;>
      first
      | exact ⟨_, _, rfl, rfl⟩
      | cases h

theorem sub_numbers (hp : 0 < p) (a b : Int) :
    ModArith.add a (ModArith.mul (-1) b p) p = ModArith.sub a b p := by
  have hpz : (0 : Int) < p := by exact_mod_cast hp
  unfold ModArith.add ModArith.sub
  apply modulus_congr hpz
  have : ModArith.mul (-1) b p ≡ -1 * b [ZMOD p] := modulus_modEq _ hpz
  have h2 := this.add_left a
  have h3 : a + -1 * b = a - b := by ring
  rwa [h3] at h2

/-- On numbers the symbolic operators compute exactly the concrete ones. -/
theorem applyOp_numbers (hp : 0 < p) (op : Op) {a b : Int} {e : V}
    (h : applyOp op (.number a) (.number b) p = .ok e) :
    ∃ c, e = .number c ∧ cOp op a b p = some c := by
  cases op <;> simp only [applyOp, Algebra.add, Algebra.mul, Algebra.sub, Algebra.div, Algebra.pow,
    numOp, numOpR, cOp, optOf_some] at h ⊢ <;>
    first
    | (injection h with h; subst h; exact ⟨_, rfl, by first | rfl | rw [sub_numbers hp]⟩)
    | (obtain ⟨c, h1, h2⟩ := (bind_ok_iff _ _ _).1 h
       injection h2 with h2
       exact ⟨c, h2.symm, h1⟩)

theorem value_of_ne {ρ : Nat → ZMod p} {a : V} {c : Int} (h : RelV p ρ a c) (hne : a ≠ .nonQuadratic) :
    a.value ρ = some (c : ZMod p) := h.value.resolve_left hne

theorem computes_value {ρ : Nat → ZMod p} (hρ : ρ default = 1) {f : ZMod p → ZMod p → ZMod p}
    {l r e : V} {a b : Int} (hc : Computes p f l r e) (hl : RelV p ρ l a) (hr : RelV p ρ r b) :
    e.value ρ = some (f a b) := by
  obtain ⟨x, y, hx, hy, he⟩ := hc ρ hρ
  have h1 : l ≠ .nonQuadratic := by rintro rfl; simp [AExpr.value] at hx
  have h2 : r ≠ .nonQuadratic := by rintro rfl; simp [AExpr.value] at hy
  have h3 := value_of_ne hl h1
  have h4 := value_of_ne hr h2
  rw [hx] at h3; rw [hy] at h4
  injection h3 with h3; injection h4 with h4
  rw [he, h3, h4]

theorem applyOp_rel (hp : 1 < p) {ρ : Nat → ZMod p} (hρ : ρ default = 1) (op : Op) {l r e : V}
    {a b c : Int} (hl : RelV p ρ l a) (hr : RelV p ρ r b) (he : applyOp op l r p = .ok e)
    (hc : cOp op a b p = some c) : RelV p ρ e c := by
  have hp0 : 0 < p := by omega
  have hcan := cOp_canon hp op hl.canon hc
  by_cases hn : ∃ v w, l = .number v ∧ r = .number w
  · obtain ⟨v, w, rfl, rfl⟩ := hn
    have hv := hl.number _ rfl
    have hw := hr.number _ rfl
    subst hv; subst hw
    obtain ⟨c', h1, h2⟩ := applyOp_numbers hp0 op he
    rw [hc] at h2; injection h2 with h2; subst h2; subst h1
    exact RelV.num hcan
  · have hnn : ∀ v, e ≠ .number v := by
      rintro v rfl
      obtain ⟨x, y, h1, h2⟩ := applyOp_number op he
      exact hn ⟨x, y, h1, h2⟩
    suffices h : e.Valid p ∧ (e ≠ .nonQuadratic → e.value ρ = some (c : ZMod p)) by
      refine ⟨hcan, h.1, ?_, fun v hv => absurd hv (hnn v)⟩
      by_cases hq : e = .nonQuadratic
      · exact .inl hq
      · exact .inr (h.2 hq)
    cases op
    case add =>
      obtain ⟨e', h1, h2, h3⟩ := Verif.Props.Algebra.C11_add hp0 l r hl.valid hr.valid
      simp only [applyOp] at he
      rw [he] at h1; injection h1 with h1; subst h1
      refine ⟨h2, fun hq => ?_⟩
      rw [computes_value hρ (h3 hq) hl hr]
      simp only [cOp, Option.some.injEq] at hc
      rw [← hc, ModArith.add_cast _ _ _ hp0]
    case sub =>
      obtain ⟨e', h1, h2, h3⟩ := Verif.Props.Algebra.C11_sub hp0 l r hl.valid hr.valid
      simp only [applyOp] at he
      rw [he] at h1; injection h1 with h1; subst h1
      refine ⟨h2, fun hq => ?_⟩
      rw [computes_value hρ (h3 hq) hl hr]
      simp only [cOp, Option.some.injEq] at hc
      rw [← hc, ModArith.sub_cast _ _ _ hp0]
    case mul =>
      obtain ⟨h2, h3⟩ := Verif.Props.Algebra.C11_mul hp0 l r hl.valid hr.valid
      simp only [applyOp] at he
      injection he with he; subst he
      refine ⟨h2, fun hq => ?_⟩
      rw [computes_value hρ (h3 hq) hl hr]
      simp only [cOp, Option.some.injEq] at hc
      rw [← hc, ModArith.mul_cast _ _ _ hp0]
    case div =>
      obtain ⟨h2, h3⟩ := (Verif.Props.Algebra.C11_div hp0 l r hl.valid).1 e he
      refine ⟨h2, fun hq => ?_⟩
      obtain ⟨x, y, z, hx, hy, hz, hm⟩ := h3 hq ρ hρ
      have g1 : l ≠ .nonQuadratic := by rintro rfl; simp [AExpr.value] at hx
      have g2 : r ≠ .nonQuadratic := by rintro rfl; simp [AExpr.value] at hy
      have g3 := value_of_ne hl g1
      have g4 := value_of_ne hr g2
      rw [hx] at g3; rw [hy] at g4
      injection g3 with g3; injection g4 with g4
      simp only [cOp, optOf_some] at hc
      have hu : IsUnit (b : ZMod p) := by
        by_contra hu
        rw [(Verif.Props.ModArith.C02_div a b p hp0).2 hu] at hc; cases hc
      obtain ⟨q, hq1, _, hq2⟩ := (Verif.Props.ModArith.C02_div a b p hp0).1 hu
      rw [hc] at hq1; injection hq1 with hq1; subst hq1
      rw [hz]
      subst g3; subst g4
      congr 1
      exact hu.mul_right_cancel (by rw [hm, hq2])
    case pow =>
      obtain ⟨h2, h3⟩ := Verif.Props.Algebra.C11_pow hp0 l r hl.valid e he
      refine ⟨h2, fun hq => ?_⟩
      obtain ⟨n, hn', h4⟩ := h3 hq
      obtain ⟨x, hx, hv⟩ := h4 ρ hρ
      have g1 : l ≠ .nonQuadratic := by rintro rfl; simp [AExpr.value] at hx
      have g3 := value_of_ne hl g1
      rw [hx] at g3; injection g3 with g3
      have hb := hr.number _ hn'
      subst hb
      simp only [cOp, optOf_some] at hc
      obtain ⟨q, hq1, _, hq2⟩ := Verif.Props.ModArith.C05_pow a n p hp0
      rw [hc] at hq1; injection hq1 with hq1; subst hq1
      rw [hv, hq2, g3]
    all_goals
      have : e = .nonQuadratic := by
        cases l <;> cases r <;> simp only [applyOp, numOp, numOpR, Except.ok.injEq] at he <;>
          first
          | exact he.symm
          | exact absurd ⟨_, _, rfl, rfl⟩ hn
      subst this
      exact ⟨trivial, fun h => absurd rfl h⟩

theorem applyUOp_rel (hp : 1 < p) {ρ : Nat → ZMod p} (hρ : ρ default = 1) (op : UOp) {e : V} {a : Int}
    (he : RelV p ρ e a) : RelV p ρ (applyUOp op e p) (cUOp op a p) := by
  have hp0 : 0 < p := by omega
  have hcan := cUOp_canon hp op a
  by_cases hn : ∃ v, e = .number v
  · obtain ⟨v, rfl⟩ := hn
    have := he.number _ rfl
    subst this
    cases op <;> exact RelV.num hcan
  · cases op
    case sub =>
      obtain ⟨h1, h2⟩ := Verif.Props.Algebra.C11_neg hp0 e he.valid
      refine ⟨hcan, h1, ?_, ?_⟩
      · by_cases hq : prefixSub e (p : Int) = .nonQuadratic
        · exact .inl hq
        · obtain ⟨x, hx, hv⟩ := h2 hq ρ hρ
          have g1 : e ≠ .nonQuadratic := by rintro rfl; simp [AExpr.value] at hx
          have g3 := value_of_ne he g1
          rw [hx] at g3; injection g3 with g3
          right
          simp only [applyUOp, cUOp]
          rw [hv, g3, ModArith.prefixSub_cast _ _ hp0]
      · intro v hv
        obtain ⟨x, y, h1, _⟩ := mul_number hv
        exact absurd ⟨x, h1⟩ hn
    all_goals
      first
      | (show RelV p ρ (applyUOp .boolNot e p) _
         rw [show applyUOp .boolNot e (p : Int) = .nonQuadratic by
              cases e <;> first | rfl | exact absurd ⟨_, rfl⟩ hn]
         exact RelV.nonQuadratic hcan)
      | (show RelV p ρ (applyUOp .complement e p) _
         rw [show applyUOp .complement e (p : Int) = .nonQuadratic by
              cases e <;> first | rfl | exact absurd ⟨_, rfl⟩ hn]
         exact RelV.nonQuadratic hcan)

/-! ### Environments -/

def RelB (p : Nat) (ρ : Nat → ZMod p) : List (Nat × V) → List (Nat × Int) → Prop :=
  List.Forall₂ fun a c => a.1 = c.1 ∧ RelV p ρ a.2 c.2

def RelE (p : Nat) (ρ : Nat → ZMod p) : List (List (Nat × V)) → CEnv → Prop :=
  List.Forall₂ (RelB p ρ)

theorem blockGet_rel {β γ : Type} {R : β → γ → Prop} {b : List (Nat × β)} {d : List (Nat × γ)}
    (h : List.Forall₂ (fun a c => a.1 = c.1 ∧ R a.2 c.2) b d) (x : Nat) :
    (blockGet b x = none ∧ blockGet d x = none) ∨
      ∃ v w, blockGet b x = some v ∧ blockGet d x = some w ∧ R v w := by
  induction h with
  | nil => exact .inl ⟨rfl, rfl⟩
  | @cons a c b d hac _ ih =>
    obtain ⟨y, v⟩ := a
    obtain ⟨y', w⟩ := c
    obtain ⟨h1, h2⟩ := hac
    simp only at h1 h2
    subst h1
    simp only [blockGet]
    by_cases hx : y = x
    · rw [if_pos hx, if_pos hx]; exact .inr ⟨v, w, rfl, rfl, h2⟩
    · rw [if_neg hx, if_neg hx]; exact ih

theorem envGet_rel {β γ : Type} {R : β → γ → Prop} {b : List (List (Nat × β))}
    {d : List (List (Nat × γ))}
    (h : List.Forall₂ (List.Forall₂ (fun a c => a.1 = c.1 ∧ R a.2 c.2)) b d) (x : Nat) :
    (envGet b x = none ∧ envGet d x = none) ∨
      ∃ v w, envGet b x = some v ∧ envGet d x = some w ∧ R v w := by
  induction h with
  | nil => exact .inl ⟨rfl, rfl⟩
  | cons hac _ ih =>
    simp only [envGet]
    rcases blockGet_rel hac x with ⟨h1, h2⟩ | ⟨v, w, h1, h2, h3⟩
    · rw [h1, h2]; exact ih
    · rw [h1, h2]; exact .inr ⟨v, w, rfl, rfl, h3⟩

theorem blockSet_rel {β γ : Type} {R : β → γ → Prop} {b : List (Nat × β)} {d : List (Nat × γ)}
    (h : List.Forall₂ (fun a c => a.1 = c.1 ∧ R a.2 c.2) b d) (x : Nat) {v : β} {w : γ} (hv : R v w) :
    (blockSet b x v = none ∧ blockSet d x w = none) ∨
      ∃ b' d', blockSet b x v = some b' ∧ blockSet d x w = some d' ∧
        List.Forall₂ (fun a c => a.1 = c.1 ∧ R a.2 c.2) b' d' := by
  induction h with
  | nil => exact .inl ⟨rfl, rfl⟩
  | @cons a c b d hac hbd ih =>
    obtain ⟨y, v0⟩ := a
    obtain ⟨y', w0⟩ := c
    obtain ⟨h1, h2⟩ := hac
    simp only at h1 h2
    subst h1
    simp only [blockSet]
    by_cases hx : y = x
    · rw [if_pos hx, if_pos hx]; exact .inr ⟨_, _, rfl, rfl, .cons ⟨rfl, hv⟩ hbd⟩
    · rw [if_neg hx, if_neg hx]
      rcases ih with ⟨h3, h4⟩ | ⟨b', d', h3, h4, h5⟩
      · rw [h3, h4]; exact .inl ⟨rfl, rfl⟩
      · rw [h3, h4]; exact .inr ⟨_, _, rfl, rfl, .cons ⟨rfl, h2⟩ h5⟩

theorem envSet_rel {β γ : Type} {R : β → γ → Prop} {b : List (List (Nat × β))}
    {d : List (List (Nat × γ))}
    (h : List.Forall₂ (List.Forall₂ (fun a c => a.1 = c.1 ∧ R a.2 c.2)) b d) (x : Nat) {v : β} {w : γ}
    (hv : R v w) :
    (envSet b x v = none ∧ envSet d x w = none) ∨
      ∃ b' d', envSet b x v = some b' ∧ envSet d x w = some d' ∧
        List.Forall₂ (List.Forall₂ (fun a c => a.1 = c.1 ∧ R a.2 c.2)) b' d' := by
  induction h with
  | nil => exact .inl ⟨rfl, rfl⟩
  | cons hac hbd ih =>
    simp only [envSet]
    rcases blockSet_rel hac x hv with ⟨h1, h2⟩ | ⟨b', d', h1, h2, h3⟩
    · rw [h1, h2]
      rcases ih with ⟨h3, h4⟩ | ⟨b', d', h3, h4, h5⟩
      · rw [h3, h4]; exact .inl ⟨rfl, rfl⟩
      · rw [h3, h4]; exact .inr ⟨_, _, rfl, rfl, .cons hac h5⟩
    · rw [h1, h2]; exact .inr ⟨_, _, rfl, rfl, .cons h3 hbd⟩

theorem cEval_canon (hp : 1 < p) {w : Nat → Int} (hw : ∀ s, 0 ≤ w s ∧ w s < p)
    {env : List (List (Nat × V))} {cenv : CEnv} {ρ : Nat → ZMod p}
    (hE : RelE p ρ env cenv) (e : Expr) (hl : e.Lits p) {c : Int}
    (hc : cEval p w cenv e = some c) : 0 ≤ c ∧ c < p := by
  induction e generalizing c with
  | num v =>
    simp only [cEval, Option.some.injEq] at hc
    subst hc; exact hl
  | var x =>
    simp only [cEval] at hc
    rcases envGet_rel hE x with ⟨_, g1⟩ | ⟨v, u, g1, g2, g3⟩
    · rw [g1] at hc; cases hc
    · rw [g2] at hc; injection hc with hc; subst hc; exact g3.canon
  | sig s =>
    simp only [cEval, Option.some.injEq] at hc
    subst hc; exact hw s
  | bin op l r ihl ihr =>
    simp only [cEval] at hc
    cases hcl : cEval p w cenv l with
    | none => rw [hcl] at hc; cases hc
    | some cl =>
      cases hcr : cEval p w cenv r with
      | none => rw [hcl, hcr] at hc; cases hc
      | some cr =>
        rw [hcl, hcr] at hc
        exact cOp_canon hp op (ihl hl.1 hcl) hc
  | un op e ih =>
    simp only [cEval] at hc
    cases hce : cEval p w cenv e with
    | none => rw [hce] at hc; cases hc
    | some c' =>
      rw [hce] at hc
      injection hc with hc; subst hc
      exact cUOp_canon hp op c'
  | ite c0 x y ihc ihx ihy =>
    simp only [cEval] at hc
    cases hce : cEval p w cenv c0 with
    | none => rw [hce] at hc; cases hc
    | some c' =>
      rw [hce] at hc
      simp only at hc
      split at hc
      · exact ihx hl.2.1 hc
      · exact ihy hl.2.2 hc

/-- Evaluation is sound. -/
theorem eval_rel (hp : 1 < p) {w : Nat → Int} (hw : ∀ s, 0 ≤ w s ∧ w s < p) (h1 : w 0 = 1)
    {sigs : Nat → AState} {env : List (List (Nat × V))} {cenv : CEnv}
    (hE : RelE p (fun s => (w s : ZMod p)) env cenv) (e : Expr) (hl : e.Lits p) {a : V} {c : Int}
    (ha : eval p sigs env e = .ok a) (hc : cEval p w cenv e = some c) :
    RelV p (fun s => (w s : ZMod p)) a c := by
  have hρ : (fun s => (w s : ZMod p)) (default : Nat) = 1 := by
    show ((w 0 : Int) : ZMod p) = 1
    rw [h1]; simp
  induction e generalizing a c with
  | num v =>
    simp only [eval, Except.ok.injEq] at ha
    simp only [cEval, Option.some.injEq] at hc
    subst ha; subst hc
    exact RelV.num hl
  | var x =>
    simp only [eval] at ha
    simp only [cEval] at hc
    rcases envGet_rel hE x with ⟨g1, _⟩ | ⟨v, u, g1, g2, g3⟩
    · rw [g1] at ha; cases ha
    · rw [g1] at ha; rw [g2] at hc
      injection ha with ha; injection hc with hc
      subst ha; subst hc; exact g3
  | sig s =>
    simp only [cEval, Option.some.injEq] at hc
    subst hc
    have : a = .signal s := by
      simp only [eval] at ha
      split at ha
      · cases ha
      · injection ha with ha; exact ha.symm
    subst this
    exact ⟨hw s, trivial, .inr rfl, by intro v hv; cases hv⟩
  | bin op l r ihl ihr =>
    simp only [eval] at ha
    simp only [cEval] at hc
    cases hvl : eval p sigs env l with
    | error x => rw [hvl] at ha; cases ha
    | ok vl =>
      cases hvr : eval p sigs env r with
      | error x => rw [hvl, hvr] at ha; cases ha
      | ok vr =>
        rw [hvl, hvr] at ha
        simp only at ha
        cases hcl : cEval p w cenv l with
        | none => rw [hcl] at hc; cases hc
        | some cl =>
          cases hcr : cEval p w cenv r with
          | none => rw [hcl, hcr] at hc; cases hc
          | some cr =>
            rw [hcl, hcr] at hc
            simp only at hc
            cases hop : applyOp op vl vr p with
            | error x => rw [hop] at ha; cases ha
            | ok v =>
              rw [hop] at ha
              injection ha with ha; subst ha
              exact applyOp_rel hp hρ op (ihl hl.1 hvl hcl) (ihr hl.2 hvr hcr) hop hc
  | un op e ih =>
    simp only [eval] at ha
    simp only [cEval] at hc
    cases hv : eval p sigs env e with
    | error x => rw [hv] at ha; cases ha
    | ok v =>
      rw [hv] at ha
      injection ha with ha; subst ha
      cases hce : cEval p w cenv e with
      | none => rw [hce] at hc; cases hc
      | some c' =>
        rw [hce] at hc
        injection hc with hc; subst hc
        exact applyUOp_rel hp hρ op (ih hl hv hce)
  | ite c0 x y ihc ihx ihy =>
    simp only [eval] at ha
    simp only [cEval] at hc
    obtain ⟨l1, l2, l3⟩ := hl
    cases hv : eval p sigs env c0 with
    | error x => rw [hv] at ha; cases ha
    | ok v =>
      rw [hv] at ha
      simp only at ha
      cases hce : cEval p w cenv c0 with
      | none => rw [hce] at hc; cases hc
      | some c' =>
        rw [hce] at hc
        simp only at hc
        have hrel := ihc l1 hv hce
        have key : ∀ (b : Bool), getBool v p = some b → asBool c' p = b := by
          intro b hb
          cases v <;> simp only [getBool, Option.some.injEq] at hb
          · rw [← hrel.number _ rfl]; exact hb
          all_goals cases hb
        cases hb : getBool v p with
        | none =>
          rw [hb] at ha
          injection ha with ha; subst ha
          refine RelV.nonQuadratic ?_
          split at hc
          · exact cEval_canon hp hw hE x l2 hc
          · exact cEval_canon hp hw hE y l3 hc
        | some b =>
          rw [hb] at ha
          rw [key b hb] at hc
          cases b
          · exact ihy l3 ha (by simpa using hc)
          · exact ihx l2 ha (by simpa using hc)

end Verif.Exec
