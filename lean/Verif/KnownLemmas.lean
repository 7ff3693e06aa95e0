import Verif.Known
import Verif.ExecUnknown

/-!
Which variables an execution or an analysis changes.
-/

set_option linter.unusedSectionVars false
set_option linter.unusedSimpArgs false
set_option linter.unusedVariables false

namespace Verif.Known

open Verif.ModArith Verif.Algebra Verif.Exec Verif.Filters

section
variable {β : Type}

/-- The variable `x` of block `i` (0 the innermost). -/
def cell (A : List (List (Nat × β))) (i x : Nat) : Option β :=
  match A, i with
  | [], _ => none
  | b :: _, 0 => blockGet b x
  | _ :: bs, i + 1 => cell bs i x

/-- The innermost block that contains `x`. -/
def place : List (List (Nat × β)) → Nat → Option Nat
  | [], _ => none
  | b :: bs, x => if (blockGet b x).isSome then some 0 else (place bs x).map (· + 1)

@[simp] theorem cell_nil (i x : Nat) : cell ([] : List (List (Nat × β))) i x = none := by
  unfold cell; rfl

@[simp] theorem cell_zero (b : List (Nat × β)) (bs : List (List (Nat × β))) (x : Nat) :
    cell (b :: bs) 0 x = blockGet b x := by rw [cell]

@[simp] theorem cell_succ (b : List (Nat × β)) (bs : List (List (Nat × β))) (i x : Nat) :
    cell (b :: bs) (i + 1) x = cell bs i x := by rw [cell]

theorem cell_tail (A : List (List (Nat × β))) (i x : Nat) : cell A.tail i x = cell A (i + 1) x := by
  cases A <;> simp

theorem place_cell {A : List (List (Nat × β))} {x i : Nat} (h : place A x = some i) :
    (cell A i x).isSome := by
  induction A generalizing i with
  | nil => simp [place] at h
  | cons b bs ih =>
    rw [place] at h
    split at h
    · rename_i hb
      injection h with h
      subst h
      simpa using hb
    · rw [Option.map_eq_some_iff] at h
      obtain ⟨j, hj, rfl⟩ := h
      simpa using ih hj

theorem envGet_cell (A : List (List (Nat × β))) (x : Nat) :
    envGet A x = (place A x).bind fun i => cell A i x := by
  induction A with
  | nil => rfl
  | cons b bs ih =>
    rw [envGet, place]
    cases hb : blockGet b x with
    | some v => simp [hb]
    | none =>
      simp only [Option.isSome_none, Bool.false_eq_true, if_false, ih]
      cases place bs x <;> simp

theorem blockSet_get {b b' : List (Nat × β)} {x : Nat} {v : β} (h : blockSet b x v = some b') :
    (blockGet b x).isSome ∧ ∀ y, blockGet b' y = if y = x then some v else blockGet b y := by
  induction b generalizing b' with
  | nil => simp [blockSet] at h
  | cons e rest ih =>
    obtain ⟨z, u⟩ := e
    simp only [blockSet] at h
    split at h
    · rename_i hz
      injection h with h
      subst h; subst hz
      refine ⟨by simp [blockGet], fun y => ?_⟩
      simp only [blockGet]
      by_cases hy : y = z
      · subst hy; simp
      · simp [hy, Ne.symm hy]
    · rename_i hz
      rw [Option.map_eq_some_iff] at h
      obtain ⟨r', hr, rfl⟩ := h
      obtain ⟨g1, g2⟩ := ih hr
      refine ⟨by simpa [blockGet, hz] using g1, fun y => ?_⟩
      simp only [blockGet]
      by_cases hy : z = y
      · subst hy; simp [hz]
      · simp only [if_neg hy]; exact g2 y

theorem blockSet_none {b : List (Nat × β)} {x : Nat} {v : β} (h : blockSet b x v = none) :
    blockGet b x = none := by
  induction b with
  | nil => rfl
  | cons e rest ih =>
    obtain ⟨z, u⟩ := e
    simp only [blockSet] at h
    split at h
    · cases h
    · rename_i hz
      simp only [Option.map_eq_none_iff] at h
      simpa [blockGet, hz] using ih h

theorem envSet_cell {A A' : List (List (Nat × β))} {x : Nat} {v : β} (h : envSet A x v = some A') :
    ∃ i, place A x = some i ∧ A'.length = A.length ∧
      ∀ j y, cell A' j y = if j = i ∧ y = x then some v else cell A j y := by
  induction A generalizing A' with
  | nil => simp [envSet] at h
  | cons b bs ih =>
    rw [envSet] at h
    split at h
    · rename_i b' hb
      injection h with h
      subst h
      obtain ⟨g1, g2⟩ := blockSet_get hb
      refine ⟨0, by simp [place, g1], rfl, fun j y => ?_⟩
      cases j with
      | zero => simp [g2]
      | succ j => simp
    · rename_i hb
      have hn := blockSet_none hb
      rw [Option.map_eq_some_iff] at h
      obtain ⟨bs', hbs, rfl⟩ := h
      obtain ⟨i, g1, g2, g3⟩ := ih hbs
      refine ⟨i + 1, by simp [place, hn, g1], by simp [g2], fun j y => ?_⟩
      cases j with
      | zero => simp
      | succ j => simp [g3]

theorem envSet_total {A : List (List (Nat × β))} {x i : Nat} (v : β) (h : place A x = some i) :
    ∃ A', envSet A x v = some A' := by
  induction A generalizing i with
  | nil => simp [place] at h
  | cons b bs ih =>
    rw [envSet]
    split
    · exact ⟨_, rfl⟩
    · rename_i hb
      rw [place, blockSet_none hb] at h
      simp only [Option.isSome_none, Bool.false_eq_true, if_false, Option.map_eq_some_iff] at h
      obtain ⟨j, hj, _⟩ := h
      obtain ⟨bs', hbs⟩ := ih hj
      exact ⟨_, by rw [hbs]; rfl⟩

/-- The same variables in the same blocks. -/
def Shape {γ : Type} (A : List (List (Nat × β))) (B : List (List (Nat × γ))) : Prop :=
  A.length = B.length ∧ ∀ i x, (cell A i x).isSome = (cell B i x).isSome

theorem Shape.tail {γ : Type} {A : List (List (Nat × β))} {B : List (List (Nat × γ))} (h : Shape A B) :
    Shape A.tail B.tail := by
  refine ⟨by simp [h.1], fun i x => ?_⟩
  rw [cell_tail, cell_tail]
  exact h.2 _ _

theorem Shape.symm {γ : Type} {A : List (List (Nat × β))} {B : List (List (Nat × γ))} (h : Shape A B) :
    Shape B A := ⟨h.1.symm, fun i x => (h.2 i x).symm⟩

theorem Shape.trans {γ δ : Type} {A : List (List (Nat × β))} {B : List (List (Nat × γ))}
    {C : List (List (Nat × δ))} (h : Shape A B) (h' : Shape B C) : Shape A C :=
  ⟨h.1.trans h'.1, fun i x => (h.2 i x).trans (h'.2 i x)⟩

theorem Shape.place {γ : Type} : ∀ {A : List (List (Nat × β))} {B : List (List (Nat × γ))}, Shape A B →
    ∀ x, place A x = place B x
  | [], [], _, x => rfl
  | [], _ :: _, h, x => by simp [Shape] at h
  | _ :: _, [], h, x => by simp [Shape] at h
  | a :: as, b :: bs, h, x => by
    have h0 := h.2 0 x
    simp only [cell_zero] at h0
    have := Shape.place (A := as) (B := bs) h.tail x
    rw [Known.place, Known.place, h0, this]

/-- Only visible variables have changed, each as the given relation allows. -/
def Off (ρ : Nat → β → β → Prop) (A A' : List (List (Nat × β))) : Prop :=
  A'.length = A.length ∧ ∀ i x, cell A' i x = cell A i x ∨
    (place A x = some i ∧ ∃ u v, cell A i x = some u ∧ cell A' i x = some v ∧ ρ x u v)

variable {ρ : Nat → β → β → Prop}

theorem Off.refl (A : List (List (Nat × β))) : Off ρ A A := ⟨rfl, fun _ _ => .inl rfl⟩

theorem Off.shape {A A' : List (List (Nat × β))} (h : Off ρ A A') : Shape A' A := by
  refine ⟨h.1, fun i x => ?_⟩
  rcases h.2 i x with h | ⟨h1, u, v, h2, h3, _⟩
  · rw [h]
  · rw [h2, h3]; rfl

theorem Off.trans (ht : ∀ x u v w, ρ x u v → ρ x v w → ρ x u w) {A B C : List (List (Nat × β))}
    (h : Off ρ A B) (h' : Off ρ B C) : Off ρ A C := by
  refine ⟨h'.1.trans h.1, fun i x => ?_⟩
  rcases h'.2 i x with g | ⟨g1, u, v, g2, g3, g4⟩
  · rw [g]
    exact h.2 i x
  · refine .inr ⟨by rw [← h.shape.place]; exact g1, ?_⟩
    rcases h.2 i x with k | ⟨_, u', v', k2, k3, k4⟩
    · exact ⟨u, v, by rw [← k]; exact g2, g3, g4⟩
    · rw [g2] at k3
      injection k3 with k3
      subst k3
      exact ⟨u', v, k2, g3, ht _ _ _ _ k4 g4⟩

theorem Off.mono {σ : Nat → β → β → Prop} {A B : List (List (Nat × β))}
    (hPQ : ∀ x u v, ρ x u v → σ x u v) (h : Off ρ A B) : Off σ A B :=
  ⟨h.1, fun i x => (h.2 i x).imp_right fun ⟨a, u, v, b, c, d⟩ => ⟨a, u, v, b, c, hPQ _ _ _ d⟩⟩

theorem Off.tail {A B : List (List (Nat × β))} (h : Off ρ A B) : Off ρ A.tail B.tail := by
  refine ⟨by simp [h.1], fun i x => ?_⟩
  rw [cell_tail, cell_tail]
  rcases h.2 (i + 1) x with g | ⟨g2, g3⟩
  · exact .inl g
  · refine .inr ⟨?_, g3⟩
    cases A with
    | nil => simp [Known.place] at g2
    | cons a as =>
      rw [Known.place] at g2
      split at g2
      · cases g2
      · rw [Option.map_eq_some_iff] at g2
        obtain ⟨j, hj, hji⟩ := g2
        have : j = i := by omega
        subst this
        exact hj

theorem Off.set {A A' : List (List (Nat × β))} {x : Nat} {v : β}
    (hx : ∀ u, envGet A x = some u → ρ x u v) (h : envSet A x v = some A') : Off ρ A A' := by
  obtain ⟨i, g1, g2, g3⟩ := envSet_cell h
  refine ⟨g2, fun j y => ?_⟩
  rw [g3]
  split
  · rename_i hc
    obtain ⟨rfl, rfl⟩ := hc
    refine .inr ⟨g1, ?_⟩
    cases hu : cell A j y with
    | none => have := place_cell g1; simp [hu] at this
    | some u => exact ⟨u, v, rfl, rfl, hx u (by rw [envGet_cell, g1]; exact hu)⟩
  · exact .inl rfl

/-- `Off` for statements that may declare in the innermost block. -/
def OffB (ρ : Nat → β → β → Prop) (b : Bool) (A A' : List (List (Nat × β))) : Prop :=
  A'.length = A.length ∧ Off ρ A.tail A'.tail ∧ (b = false → Off ρ A A')

theorem OffB.of {b : Bool} {A A' : List (List (Nat × β))} (h : Off ρ A A') : OffB ρ b A A' :=
  ⟨h.1, h.tail, fun _ => h⟩

theorem OffB.trans (ht : ∀ x u v w, ρ x u v → ρ x v w → ρ x u w) {b : Bool} {A B C : List (List (Nat × β))}
    (h : OffB ρ b A B) (h' : OffB ρ b B C) : OffB ρ b A C :=
  ⟨h'.1.trans h.1, h.2.1.trans ht h'.2.1, fun hb => (h.2.2 hb).trans ht (h'.2.2 hb)⟩

theorem OffB.mono {σ : Nat → β → β → Prop} {b : Bool} {A B : List (List (Nat × β))}
    (hPQ : ∀ x u v, ρ x u v → σ x u v) (h : OffB ρ b A B) : OffB σ b A B :=
  ⟨h.1, h.2.1.mono hPQ, fun hb => (h.2.2 hb).mono hPQ⟩

theorem OffB.add {A A' : List (List (Nat × β))} {x : Nat} {v : β}
    (h : envAdd A x v = some A') : OffB ρ true A A' := by
  cases A with
  | nil => simp [envAdd] at h
  | cons b bs =>
    simp only [envAdd, Option.some.injEq] at h
    subst h
    exact ⟨rfl, Off.refl _, fun h => by cases h⟩

theorem OffB.block {b : Bool} {A A' : List (List (Nat × β))} (h : OffB ρ true ([] :: A) A') :
    OffB ρ b A A'.tail := OffB.of (by simpa using h.2.1)

end

/-! ### Names assigned -/

/-- All names assigned in the statement. -/
def assigned : LStmt → List Nat
  | .nil | .decl _ _ | .sassign _ _ _ | .cassign _ _ _ | .check _ _ _ => []
  | .cons a b => assigned a ++ assigned b
  | .assign _ x _ => [x]
  | .ifThen _ _ t => assigned t
  | .ifElse _ _ t e => assigned t ++ assigned e
  | .while _ _ b => assigned b
  | .block _ b | .init _ b => assigned b

/-- Names assigned or declared outside of loops. -/
def outside : LStmt → List Nat
  | .nil | .sassign _ _ _ | .cassign _ _ _ | .check _ _ _ | .while _ _ _ => []
  | .cons a b => outside a ++ outside b
  | .decl _ x | .assign _ x _ => [x]
  | .ifThen _ _ t => outside t
  | .ifElse _ _ t e => outside t ++ outside e
  | .block _ b | .init _ b => outside b

/-- No `===` or `<==`. -/
def Free : LStmt → Prop
  | .nil | .decl _ _ | .assign _ _ _ | .sassign _ _ _ => True
  | .cassign _ _ _ | .check _ _ _ => False
  | .cons a b => Free a ∧ Free b
  | .ifThen _ _ t => Free t
  | .ifElse _ _ t e => Free t ∧ Free e
  | .while _ _ b => Free b
  | .block _ b | .init _ b => Free b

/-! ### Executions -/

section
variable {R : List (List (Nat × V)) → List (List (Nat × V)) → Prop} (hr : ∀ A, R A A)
  (ht : ∀ A B C, R A B → R B C → R A C)
include hr ht

/-- Relations between the variables before and after that the branches keep. -/
theorem conditional_env {field : Int} {c : Expr} {t : St → Ex (St × Option V)}
    {e : Option (St → Ex (St × Option V))}
    (h1 : ∀ st st' r, t st = .ok (st', r) → R st.env st'.env)
    (h2 : ∀ f, e = some f → ∀ st st' r, f st = .ok (st', r) → R st.env st'.env)
    {st st' : St} {r : Option V} {cr : Option Bool}
    (h : conditional field c t e st = .ok (st', r, cr)) : R st.env st'.env := by
  obtain ⟨vc, _, hc⟩ := conditional_cases h
  clear h
  rcases hc with ⟨_, _, h⟩ | ⟨_, _, _, rfl, _⟩ | ⟨f, _, _, hf, h⟩ | ⟨_, _, _, st1, h, rfl⟩ |
    ⟨f, st1, r1, last, st2, r2, _, _, hf, ha, hl, hb, rfl, _⟩
  · exact h1 _ _ _ h
  · exact hr _
  · exact h2 f hf _ _ _ h
  · exact h1 (enter st) st1 r h
  · exact ht _ st1.env _ (h1 (enter st) _ _ ha) (h2 f hf (Exec.flip last st1) st2 r2 hb)

theorem whileLoop_env {step : St → Ex (St × Option V × Option Bool)}
    (hs : ∀ st st' r cr, step st = .ok (st', r, cr) → R st.env st'.env) :
    ∀ (fuel : Nat) (st st' : St) (r : Option V), whileLoop step fuel st = .ok (st', r) → R st.env st'.env
  | 0, st, st', r, h => by simp [whileLoop] at h
  | fuel + 1, st, st', r, h => by
    rw [whileLoop] at h
    split at h
    · cases h
    · rename_i h1
      simp only [Except.ok.injEq, Prod.mk.injEq] at h
      obtain ⟨rfl, _⟩ := h
      exact hs _ _ _ _ h1
    · rename_i h1
      split at h
      · cases h
      · rename_i h2
        simp only [Except.ok.injEq, Prod.mk.injEq] at h
        obtain ⟨rfl, _⟩ := h
        exact ht _ _ _ (hs _ _ _ _ h1) (hs _ _ _ _ h2)
      · rename_i h2
        simp only [Except.ok.injEq, Prod.mk.injEq] at h
        obtain ⟨rfl, _⟩ := h
        rw [(markUnstable_fields step _).1]
        exact ht _ _ _ (hs _ _ _ _ h1) (hs _ _ _ _ h2)
    · rename_i h1
      simp only [Except.ok.injEq, Prod.mk.injEq] at h
      obtain ⟨rfl, _⟩ := h
      exact hs _ _ _ _ h1
    · rename_i h1
      exact ht _ _ _ (hs _ _ _ _ h1) (whileLoop_env hs fuel (endIteration _) _ _ h)

end

theorem exec_off (fuel : Nat) (field : Int) : ∀ (s : LStmt) (b : Bool), s.erase.Scoped b →
    ∀ (st st' : St) (r : Option V), exec fuel field s.erase st = .ok (st', r) →
      OffB (fun x _ _ => x ∈ assigned s) b st.env st'.env
  | .nil, b, hs, st, st', r, h => by
    simp only [LStmt.erase, exec, Except.ok.injEq, Prod.mk.injEq] at h
    obtain ⟨rfl, _⟩ := h
    exact .of (.refl _)
  | .cons x y, b, hs, st, st', r, h => by
    simp only [LStmt.erase, exec] at h
    split at h
    · cases h
    · rename_i h1
      simp only [Except.ok.injEq, Prod.mk.injEq] at h
      obtain ⟨rfl, _⟩ := h
      exact (exec_off fuel field x b hs.1 _ _ _ h1).mono (fun z _ _ hz => List.mem_append_left _ hz)
    · rename_i h1
      exact ((exec_off fuel field x b hs.1 _ _ _ h1).mono (fun z _ _ hz => List.mem_append_left _ hz)
        ).trans (fun _ _ _ _ h _ => h) ((exec_off fuel field y b hs.2 _ _ _ h).mono (fun z _ _ hz => List.mem_append_right _ hz))
  | .decl i x, b, hs, st, st', r, h => by
    simp only [LStmt.erase, exec] at h
    split at h
    · cases h
    · rename_i env henv
      simp only [Except.ok.injEq, Prod.mk.injEq] at h
      obtain ⟨rfl, _⟩ := h
      simp only [LStmt.erase, Stmt.Scoped] at hs
      subst hs
      exact .add henv
  | .assign i x e, b, hs, st, st', r, h => by
    simp only [LStmt.erase, exec] at h
    split at h
    · cases h
    · split at h
      · cases h
      · rename_i env henv
        simp only [Except.ok.injEq, Prod.mk.injEq] at h
        obtain ⟨rfl, _⟩ := h
        exact .of (.set (fun _ _ => by simp [assigned]) henv)
  | .sassign i s e, b, hs, st, st', r, h => by
    simp only [LStmt.erase, exec] at h
    split at h
    · cases h
    · split at h
      · cases h
      · rename_i st1 h1
        simp only [Except.ok.injEq, Prod.mk.injEq] at h
        obtain ⟨rfl, _⟩ := h
        obtain ⟨a, _, rfl⟩ := assignSignal_ok h1
        exact .of (.refl _)
  | .cassign i s e, b, hs, st, st', r, h => by
    simp only [LStmt.erase, exec] at h
    split at h
    · cases h
    · split at h
      · cases h
      · rename_i st1 h1
        obtain ⟨a, _, rfl⟩ := assignSignal_ok h1
        split at h
        · cases h
        · split at h
          · cases h
          · split at h
            · cases h
            · rename_i st2 h2
              simp only [Except.ok.injEq, Prod.mk.injEq] at h
              obtain ⟨rfl, _⟩ := h
              obtain ⟨d, k, _, _, rfl⟩ := addEquality_ok h2
              exact .of (.refl _)
  | .check i l r, b, hs, st, st', r', h => by
    simp only [LStmt.erase, exec] at h
    split at h
    · cases h
    · split at h
      · cases h
      · split at h
        · cases h
        · split at h
          · cases h
          · rename_i st2 h2
            simp only [Except.ok.injEq, Prod.mk.injEq] at h
            obtain ⟨rfl, _⟩ := h
            obtain ⟨d, k, _, _, rfl⟩ := addEquality_ok h2
            exact .of (.refl _)
  | .ifThen i c t, b, hs, st, st', r, h => by
    simp only [LStmt.erase, exec] at h
    split at h
    · cases h
    · rename_i h1
      simp only [Except.ok.injEq, Prod.mk.injEq] at h
      obtain ⟨rfl, _⟩ := h
      exact .of (conditional_env (R := Off (fun z _ _ => z ∈ assigned t)) Off.refl 
        (fun _ _ _ => Off.trans (fun _ _ _ _ h _ => h))
        (fun st st' r h => (exec_off fuel field t false hs st st' r h).2.2 rfl)
        (by intro f hf; cases hf) h1)
  | .ifElse i c t e, b, hs, st, st', r, h => by
    simp only [LStmt.erase, exec] at h
    split at h
    · cases h
    · rename_i h1
      simp only [Except.ok.injEq, Prod.mk.injEq] at h
      obtain ⟨rfl, _⟩ := h
      exact .of (conditional_env (R := Off (fun z _ _ => z ∈ assigned t ++ assigned e)) Off.refl 
        (fun _ _ _ => Off.trans (fun _ _ _ _ h _ => h))
        (fun st st' r h => ((exec_off fuel field t false hs.1 st st' r h).2.2 rfl).mono
          (fun z _ _ hz => List.mem_append_left _ hz))
        (by
          intro f hf
          injection hf with hf
          subst hf
          exact fun st st' r h => ((exec_off fuel field e false hs.2 st st' r h).2.2 rfl).mono
            (fun z _ _ hz => List.mem_append_right _ hz)) h1)
  | .while i c x, b, hs, st, st', r, h => by
    simp only [LStmt.erase, exec] at h
    exact .of (whileLoop_env (R := Off (fun z _ _ => z ∈ assigned x)) Off.refl 
        (fun _ _ _ => Off.trans (fun _ _ _ _ h _ => h))
      (fun st st' r cr h => conditional_env (R := Off (fun z _ _ => z ∈ assigned x)) Off.refl 
        (fun _ _ _ => Off.trans (fun _ _ _ _ h _ => h))
        (fun st st' r h => (exec_off fuel field x false hs st st' r h).2.2 rfl)
        (by intro f hf; cases hf) h) fuel (startLoop st) _ _ h)
  | .block i x, b, hs, st, st', r, h => by
    simp only [LStmt.erase, exec] at h
    split at h
    · cases h
    · rename_i h1
      simp only [Except.ok.injEq, Prod.mk.injEq] at h
      obtain ⟨rfl, _⟩ := h
      exact (exec_off fuel field x true hs _ _ _ h1).block
  | .init i x, b, hs, st, st', r, h => exec_off fuel field x b hs st st' r h

/-! ### Statements without constraints -/

theorem conditional_free {field : Int} {c : Expr} {t : St → Ex (St × Option V)}
    {e : Option (St → Ex (St × Option V))}
    (h1 : ∀ st, t st ≠ .error .constraintInUnknown)
    (h2 : ∀ f, e = some f → ∀ st, f st ≠ .error .constraintInUnknown) (hc : ∀ st : St,
      eval field st.sigs st.env c ≠ .error .constraintInUnknown) (st : St) :
    conditional field c t e st ≠ .error .constraintInUnknown := by
  intro h
  unfold conditional at h
  split at h
  · rename_i er her
    injection h with h
    exact hc st (by rw [her, h])
  · split at h
    · split at h
      · rename_i er her
        injection h with h
        exact h1 _ (by rw [her, h])
      · cases h
    · split at h
      · cases h
      · rename_i f
        split at h
        · rename_i er her
          injection h with h
          exact h2 f rfl _ (by rw [her, h])
        · cases h
    · split at h
      · rename_i er her
        injection h with h
        exact h1 _ (by rw [her, h])
      · split at h
        · cases h
        · rename_i f
          split at h
          · cases h
          · split at h
            · rename_i er her
              injection h with h
              exact h2 f rfl _ (by rw [her, h])
            · cases h

theorem whileLoop_free {step : St → Ex (St × Option V × Option Bool)}
    (hs : ∀ st, step st ≠ .error .constraintInUnknown) : ∀ (fuel : Nat) (st : St),
    whileLoop step fuel st ≠ .error .constraintInUnknown
  | 0, st => by simp [whileLoop]
  | fuel + 1, st => by
    intro h
    rw [whileLoop] at h
    split at h
    · rename_i er her
      injection h with h
      exact hs _ (by rw [her, h])
    · cases h
    · split at h
      · rename_i er her
        injection h with h
        exact hs _ (by rw [her, h])
      · cases h
      · cases h
    · cases h
    · exact whileLoop_free hs fuel _ h

theorem eval_free {field : Int} {sigs : Nat → AState} {env : List (List (Nat × V))} : ∀ (e : Expr),
    eval field sigs env e ≠ .error .constraintInUnknown
  | .num _ => by simp [eval]
  | .var x => by
    rw [eval]
    split <;> simp
  | .sig s => by
    rw [eval]
    split <;> simp
  | .bin op l r => by
    intro h
    rw [eval] at h
    split at h
    · rename_i er her
      injection h with h
      exact eval_free l (by rw [her, h])
    · split at h
      · rename_i er her
        injection h with h
        exact eval_free r (by rw [her, h])
      · split at h <;> cases h
  | .un op e => by
    intro h
    rw [eval] at h
    split at h
    · rename_i er her
      injection h with h
      exact eval_free e (by rw [her, h])
    · cases h
  | .ite c a b => by
    intro h
    rw [eval] at h
    split at h
    · rename_i er her
      injection h with h
      exact eval_free c (by rw [her, h])
    · split at h
      · exact eval_free a h
      · exact eval_free b h
      · cases h

theorem assignCell_free {a b : AState} : assignCell a b ≠ .error .constraintInUnknown := by
  unfold assignCell
  split
  · simp
  · simp
  · split
    · simp
    · simp
    · split
      · simp
      · split
        · split
          · split <;> simp
          · simp
        · simp

theorem assignSignal_free {s : Nat} {st : St} : assignSignal s st ≠ .error .constraintInUnknown := by
  intro h
  unfold assignSignal at h
  split at h
  · rename_i er her
    injection h with h
    exact assignCell_free (by rw [her, h])
  · cases h

theorem addEquality_free {l r : V} {field : Int} {st : St} :
    addEquality l r field st ≠ .error .constraintInUnknown := by
  unfold addEquality
  split
  · simp
  · split <;> simp

theorem exec_free (fuel : Nat) (field : Int) : ∀ (s : LStmt), Free s → ∀ (st : St),
    exec fuel field s.erase st ≠ .error .constraintInUnknown
  | .nil, hf, st => by simp [LStmt.erase, exec]
  | .cons x y, hf, st => by
    intro h
    simp only [LStmt.erase, exec] at h
    split at h
    · rename_i er her
      injection h with h
      exact exec_free fuel field x hf.1 st (by rw [her, h])
    · cases h
    · exact exec_free fuel field y hf.2 _ h
  | .decl i x, hf, st => by
    simp only [LStmt.erase, exec]
    split <;> simp
  | .assign i x e, hf, st => by
    intro h
    simp only [LStmt.erase, exec] at h
    split at h
    · rename_i er her
      injection h with h
      exact eval_free e.erase (by rw [her, h])
    · split at h <;> cases h
  | .sassign i s e, hf, st => by
    intro h
    simp only [LStmt.erase, exec] at h
    split at h
    · rename_i er her
      injection h with h
      exact eval_free e.erase (by rw [her, h])
    · split at h
      · rename_i er her
        injection h with h
        exact assignSignal_free (by rw [her, h])
      · cases h
  | .cassign i s e, hf, st => hf.elim
  | .check i l r, hf, st => hf.elim
  | .ifThen i c t, hf, st => by
    intro h
    simp only [LStmt.erase, exec] at h
    split at h
    · rename_i er her
      injection h with h
      rw [h] at her
      exact conditional_free (exec_free fuel field t hf) (by intro f hf; cases hf)
        (fun st => eval_free _) st her
    · cases h
  | .ifElse i c t e, hf, st => by
    intro h
    simp only [LStmt.erase, exec] at h
    split at h
    · rename_i er her
      injection h with h
      rw [h] at her
      exact conditional_free (exec_free fuel field t hf.1)
        (by intro f hf'; injection hf' with hf'; subst hf'; exact exec_free fuel field e hf.2)
        (fun st => eval_free _) st her
    · cases h
  | .while i c b, hf, st => by
    simp only [LStmt.erase, exec]
    exact whileLoop_free (conditional_free (exec_free fuel field b hf) (by intro f hf; cases hf)
        (fun st => eval_free _)) fuel _
  | .block i b, hf, st => by
    intro h
    simp only [LStmt.erase, exec] at h
    split at h
    · rename_i er her
      injection h with h
      exact exec_free fuel field b hf _ (by rw [her, h])
    · cases h
  | .init i b, hf, st => exec_free fuel field b hf st

end Verif.Known
