import Verif.Slots
import Mathlib.Order.Nat
import Mathlib.Tactic.Common

/-! Facts about temporaries. -/

set_option linter.unusedSimpArgs false
set_option linter.unusedSectionVars false
set_option linter.unusedVariables false

namespace Verif.Slots

variable {V O K F M : Type} (S : Sem V O K F M)

theorem runCode_append (n : Nat) (m : M) : ∀ (a b : List (Instr V O K)) (σ : Nat → V),
    runCode S n m (a ++ b) σ = (runCode S n m a σ).bind (runCode S n m b)
  | [], b, σ => rfl
  | i :: a, b, σ => by
    simp only [List.cons_append, runCode]
    cases evOs S n m σ i.args with
    | none => rfl
    | some vs =>
      simp only
      split
      · exact runCode_append n m a b _
      · rfl

theorem opnds_mono : ∀ (es : List (E V O K)) (f m : Nat), m ≤ (opnds es f m).2.1
  | [], _, m => le_refl m
  | e :: es, f, m => le_trans (le_max_left _ _) (opnds_mono es (opnd e f).2.2 (max m (opnd e f).2.1))

theorem addrs_mono : ∀ (as : List (A V O K)) (f m : Nat), m ≤ (addrs as f m).2.1
  | [], _, m => le_refl m
  | a :: as, f, m => le_trans (le_max_left _ _) (addrs_mono as (addr a f).2.2 (max m (addr a f).2.1))

/-- `σ` and `τ` agree from `a` to `b`. -/
def Agree (a b : Nat) (σ τ : Nat → V) : Prop := ∀ i, a ≤ i → i < b → σ i = τ i

/-- Nothing below `a` is changed. -/
def Keeps (a : Nat) (σ τ : Nat → V) : Prop := ∀ i, i < a → τ i = σ i

theorem Keeps.trans {a b : Nat} {σ τ υ : Nat → V} (h : Keeps a σ τ) (h' : Keeps b τ υ) (hab : a ≤ b) :
    Keeps a σ υ := fun i hi => (h' i (lt_of_lt_of_le hi hab)).trans (h i hi)

mutual

theorem opnd_ok (m : M) (n : Nat) : ∀ (e : E V O K) (f : Nat) (σ : Nat → V), (opnd e f).2.1 ≤ n →
    f ≤ (opnd e f).2.2 ∧ ∃ σ', runCode S n m (prodE (opnd e f).1).1 σ = some σ' ∧ Keeps f σ σ' ∧
      ∀ τ, Agree f (opnd e f).2.2 τ σ' → evO S n m τ (prodE (opnd e f).1).2 = some (evalE S m e)
  | .val aux c, f, σ, _ => ⟨Nat.le_succ f, σ, rfl, fun _ _ => rfl, fun _ _ => rfl⟩
  | .comp aux op args, f, σ, hn => by
    obtain ⟨_, σ', h1, h2, h3⟩ := opnds_ok m n args (f + 1) (f + 1) σ hn
    have hf : f < n := lt_of_lt_of_le (Nat.lt_succ_self f) (le_trans (opnds_mono args (f + 1) (f + 1)) hn)
    have hev := h3 σ' (fun _ _ _ => rfl)
    refine ⟨Nat.le_succ f, upd σ' f (S.op op (evalEs S m args)), ?_, ?_, ?_⟩
    · show runCode S n m ((prodEs (opnds args (f + 1) (f + 1)).1).1 ++
        [⟨f, op, (prodEs (opnds args (f + 1) (f + 1)).1).2⟩]) σ = _
      rw [runCode_append, h1]
      simp only [Option.bind_some, runCode, hev, hf, if_true]
    · intro i hi
      have : i ≠ f := Nat.ne_of_lt hi
      simp only [upd, this, if_false]
      exact h2 i (Nat.lt_succ_of_lt hi)
    · intro τ hτ
      have := hτ f (le_refl f) (Nat.lt_succ_self f)
      show evO S n m τ (.slot f) = some (S.op op (evalEs S m args))
      simp only [evO, hf, if_true, this, upd]
  | .load k idx, f, σ, hn => by
    obtain ⟨h0, σ', h1, h2, h3⟩ := addrs_ok m n idx f f σ hn
    refine ⟨h0, σ', h1, h2, fun τ hτ => ?_⟩
    show evO S n m τ (.read k (prodAs (addrs idx f f).1).2) = some (S.read m k (evalAs S m idx))
    simp only [evO, h3 τ hτ, Option.map_some]

theorem opnds_ok (m : M) (n : Nat) : ∀ (es : List (E V O K)) (f x : Nat) (σ : Nat → V),
    (opnds es f x).2.1 ≤ n →
    f ≤ (opnds es f x).2.2 ∧ ∃ σ', runCode S n m (prodEs (opnds es f x).1).1 σ = some σ' ∧ Keeps f σ σ' ∧
      ∀ τ, Agree f (opnds es f x).2.2 τ σ' →
        evOs S n m τ (prodEs (opnds es f x).1).2 = some (evalEs S m es)
  | [], f, x, σ, _ => ⟨le_refl f, σ, rfl, fun _ _ => rfl, fun _ _ => rfl⟩
  | e :: es, f, x, σ, hn => by
    have hn' : (opnds es (opnd e f).2.2 (max x (opnd e f).2.1)).2.1 ≤ n := hn
    have hd : (opnd e f).2.1 ≤ n := le_trans (le_max_right _ _) (le_trans (opnds_mono es _ _) hn')
    obtain ⟨g0, σ1, g1, g2, g3⟩ := opnd_ok m n e f σ hd
    obtain ⟨h0, σ2, h1, h2, h3⟩ := opnds_ok m n es (opnd e f).2.2 (max x (opnd e f).2.1) σ1 hn'
    refine ⟨le_trans g0 h0, σ2, ?_, g2.trans h2 g0, fun τ hτ => ?_⟩
    · show runCode S n m ((prodE (opnd e f).1).1 ++
        (prodEs (opnds es (opnd e f).2.2 (max x (opnd e f).2.1)).1).1) σ = _
      rw [runCode_append, g1]
      exact h1
    · have hτ' : Agree f (opnds es (opnd e f).2.2 (max x (opnd e f).2.1)).2.2 τ σ2 := hτ
      have e1 := g3 τ (fun i hi hi' => (hτ' i hi (lt_of_lt_of_le hi' h0)).trans (h2 i hi'))
      have e2 := h3 τ (fun i hi hi' => hτ' i (le_trans g0 hi) hi')
      show evOs S n m τ ((prodE (opnd e f).1).2 ::
        (prodEs (opnds es (opnd e f).2.2 (max x (opnd e f).2.1)).1).2) = some (evalE S m e :: evalEs S m es)
      simp only [evOs, e1, e2]

theorem addr_ok (m : M) (n : Nat) : ∀ (a : A V O K) (f : Nat) (σ : Nat → V), (addr a f).2.1 ≤ n →
    f ≤ (addr a f).2.2 ∧ ∃ σ', runCode S n m (prodA (addr a f).1).1 σ = some σ' ∧ Keeps f σ σ' ∧
      ∀ τ, Agree f (addr a f).2.2 τ σ' → evAO S n m τ (prodA (addr a f).1).2 = some (evalA S m a)
  | .num k, f, σ, _ => ⟨le_refl f, σ, rfl, fun _ _ => rfl, fun _ _ => rfl⟩
  | .arith mul l r, f, σ, hn => by
    have hn' : max (max f (addr l f).2.1) (addr r (addr l f).2.2).2.1 ≤ n := hn
    have hl : (addr l f).2.1 ≤ n := le_trans (le_trans (le_max_right _ _) (le_max_left _ _)) hn'
    have hr : (addr r (addr l f).2.2).2.1 ≤ n := le_trans (le_max_right _ _) hn'
    obtain ⟨g0, σ1, g1, g2, g3⟩ := addr_ok m n l f σ hl
    obtain ⟨h0, σ2, h1, h2, h3⟩ := addr_ok m n r (addr l f).2.2 σ1 hr
    refine ⟨le_trans g0 h0, σ2, ?_, g2.trans h2 g0, fun τ hτ => ?_⟩
    · show runCode S n m ((prodA (addr l f).1).1 ++ (prodA (addr r (addr l f).2.2).1).1) σ = _
      rw [runCode_append, g1]
      exact h1
    · have hτ' : Agree f (addr r (addr l f).2.2).2.2 τ σ2 := hτ
      have e1 := g3 τ (fun i hi hi' => (hτ' i hi (lt_of_lt_of_le hi' h0)).trans (h2 i hi'))
      have e2 := h3 τ (fun i hi hi' => hτ' i (le_trans g0 hi) hi')
      show evAO S n m τ (.arith mul (prodA (addr l f).1).2 (prodA (addr r (addr l f).2.2).1).2) =
        some (arithN mul (evalA S m l) (evalA S m r))
      simp only [evAO, e1, e2]
  | .toAddr e, f, σ, hn => by
    have hn' : max f (opnd e f).2.1 ≤ n := hn
    obtain ⟨g0, σ1, g1, g2, g3⟩ := opnd_ok m n e f σ (le_trans (le_max_right _ _) hn')
    refine ⟨g0, σ1, g1, g2, fun τ hτ => ?_⟩
    show evAO S n m τ (.toInt (prodE (opnd e f).1).2) = some (S.toInt (evalE S m e))
    simp only [evAO, g3 τ hτ, Option.map_some]

theorem addrs_ok (m : M) (n : Nat) : ∀ (as : List (A V O K)) (f x : Nat) (σ : Nat → V),
    (addrs as f x).2.1 ≤ n →
    f ≤ (addrs as f x).2.2 ∧ ∃ σ', runCode S n m (prodAs (addrs as f x).1).1 σ = some σ' ∧ Keeps f σ σ' ∧
      ∀ τ, Agree f (addrs as f x).2.2 τ σ' →
        evAOs S n m τ (prodAs (addrs as f x).1).2 = some (evalAs S m as)
  | [], f, x, σ, _ => ⟨le_refl f, σ, rfl, fun _ _ => rfl, fun _ _ => rfl⟩
  | a :: as, f, x, σ, hn => by
    have hn' : (addrs as (addr a f).2.2 (max x (addr a f).2.1)).2.1 ≤ n := hn
    have hd : (addr a f).2.1 ≤ n := le_trans (le_max_right _ _) (le_trans (addrs_mono as _ _) hn')
    obtain ⟨g0, σ1, g1, g2, g3⟩ := addr_ok m n a f σ hd
    obtain ⟨h0, σ2, h1, h2, h3⟩ := addrs_ok m n as (addr a f).2.2 (max x (addr a f).2.1) σ1 hn'
    refine ⟨le_trans g0 h0, σ2, ?_, g2.trans h2 g0, fun τ hτ => ?_⟩
    · show runCode S n m ((prodA (addr a f).1).1 ++
        (prodAs (addrs as (addr a f).2.2 (max x (addr a f).2.1)).1).1) σ = _
      rw [runCode_append, g1]
      exact h1
    · have hτ' : Agree f (addrs as (addr a f).2.2 (max x (addr a f).2.1)).2.2 τ σ2 := hτ
      have e1 := g3 τ (fun i hi hi' => (hτ' i hi (lt_of_lt_of_le hi' h0)).trans (h2 i hi'))
      have e2 := h3 τ (fun i hi hi' => hτ' i (le_trans g0 hi) hi')
      show evAOs S n m τ ((prodA (addr a f).1).2 ::
        (prodAs (addrs as (addr a f).2.2 (max x (addr a f).2.1)).1).2) = some (evalA S m a :: evalAs S m as)
      simp only [evAOs, e1, e2]

end

theorem runE_ok (m : M) {n : Nat} {e : E V O K} {f : Nat} (σ : Nat → V) (h : (opnd e f).2.1 ≤ n) :
    ∃ σ', runE S n m (opnd e f).1 σ = some (evalE S m e, σ') ∧ Keeps f σ σ' := by
  obtain ⟨_, σ', h1, h2, h3⟩ := opnd_ok S m n e f σ h
  exact ⟨σ', by simp only [runE, h1, h3 σ' (fun _ _ _ => rfl), Option.map_some], h2⟩

theorem runAs_ok (m : M) {n : Nat} {as : List (A V O K)} {f x : Nat} (σ : Nat → V)
    (h : (addrs as f x).2.1 ≤ n) :
    ∃ σ', runAs S n m (addrs as f x).1 σ = some (evalAs S m as, σ') ∧ Keeps f σ σ' ∧
      evAOs S n m σ' (prodAs (addrs as f x).1).2 = some (evalAs S m as) := by
  obtain ⟨_, σ', h1, h2, h3⟩ := addrs_ok S m n as f x σ h
  have := h3 σ' (fun _ _ _ => rfl)
  exact ⟨σ', by simp only [runAs, h1, this, Option.map_some], h2, this⟩

theorem runCmp_ok (m : M) {n : Nat} {c : Option (A V O K)} {f : Nat} (σ : Nat → V)
    (h : (addrOpt c f).2 ≤ n) :
    ∃ σ', runCmp S n m (addrOpt c f).1 σ = some (cmpIdx S m c, σ') ∧ Keeps f σ σ' := by
  cases c with
  | none => exact ⟨σ, rfl, fun _ _ => rfl⟩
  | some a =>
    have h' : max f (addr a f).2.1 ≤ n := h
    obtain ⟨_, σ', h1, h2, h3⟩ := addr_ok S m n a f σ (le_trans (le_max_right _ _) h')
    refine ⟨σ', ?_, h2⟩
    show (match runCode S n m (prodA (addr a f).1).1 σ with
      | none => none
      | some σ' => (evAO S n m σ' (prodA (addr a f).1).2).map fun v => (v, σ')) = some (evalA S m a, σ')
    rw [h1]
    simp only [h3 σ' (fun _ _ _ => rfl), Option.map_some]

/-! Operands without temporaries -/

mutual

/-- The text of the instruction names no temporary and needs no code. -/
def FreeE : E V O K → Prop
  | .val _ _ => True
  | .comp _ _ _ => False
  | .load _ idx => FreeAs idx

def FreeA : A V O K → Prop
  | .num _ => True
  | .arith _ l r => FreeA l ∧ FreeA r
  | .toAddr e => FreeE e

def FreeAs : List (A V O K) → Prop
  | [] => True
  | a :: as => FreeA a ∧ FreeAs as

end

mutual

theorem freeE_ok (m : M) (n : Nat) (σ : Nat → V) : ∀ e : E V O K, FreeE e →
    (prodE e).1 = [] ∧ evO S n m σ (prodE e).2 = some (evalE S m e)
  | .val _ c, _ => ⟨rfl, rfl⟩
  | .load k idx, h => by
    obtain ⟨h1, h2⟩ := freeAs_ok m n σ idx h
    refine ⟨h1, ?_⟩
    show evO S n m σ (.read k (prodAs idx).2) = some (S.read m k (evalAs S m idx))
    simp only [evO, h2, Option.map_some]

theorem freeA_ok (m : M) (n : Nat) (σ : Nat → V) : ∀ a : A V O K, FreeA a →
    (prodA a).1 = [] ∧ evAO S n m σ (prodA a).2 = some (evalA S m a)
  | .num k, _ => ⟨rfl, rfl⟩
  | .arith mul l r, h => by
    obtain ⟨h1, h2⟩ := freeA_ok m n σ l h.1
    obtain ⟨h3, h4⟩ := freeA_ok m n σ r h.2
    constructor
    · show (prodA l).1 ++ (prodA r).1 = []
      rw [h1, h3]; rfl
    · show evAO S n m σ (.arith mul (prodA l).2 (prodA r).2) = some (arithN mul (evalA S m l) (evalA S m r))
      simp only [evAO, h2, h4]
  | .toAddr e, h => by
    obtain ⟨h1, h2⟩ := freeE_ok m n σ e h
    refine ⟨h1, ?_⟩
    show evAO S n m σ (.toInt (prodE e).2) = some (S.toInt (evalE S m e))
    simp only [evAO, h2, Option.map_some]

theorem freeAs_ok (m : M) (n : Nat) (σ : Nat → V) : ∀ as : List (A V O K), FreeAs as →
    (prodAs as).1 = [] ∧ evAOs S n m σ (prodAs as).2 = some (evalAs S m as)
  | [], _ => ⟨rfl, rfl⟩
  | a :: as, h => by
    obtain ⟨h1, h2⟩ := freeA_ok m n σ a h.1
    obtain ⟨h3, h4⟩ := freeAs_ok m n σ as h.2
    constructor
    · show (prodA a).1 ++ (prodAs as).1 = []
      rw [h1, h3]; rfl
    · show evAOs S n m σ ((prodA a).2 :: (prodAs as).2) = some (evalA S m a :: evalAs S m as)
      simp only [evAOs, h2, h4]

end

mutual

theorem freeE_opnd : ∀ (e : E V O K) (f : Nat), FreeE e → FreeE (opnd e f).1
  | .val _ c, _, _ => trivial
  | .load k idx, f, h => freeAs_addrs idx f f h

theorem freeA_addr : ∀ (a : A V O K) (f : Nat), FreeA a → FreeA (addr a f).1
  | .num k, _, _ => trivial
  | .arith mul l r, f, h => ⟨freeA_addr l f h.1, freeA_addr r (addr l f).2.2 h.2⟩
  | .toAddr e, f, h => freeE_opnd e f h

theorem freeAs_addrs : ∀ (as : List (A V O K)) (f x : Nat), FreeAs as → FreeAs (addrs as f x).1
  | [], _, _, _ => trivial
  | a :: as, f, x, h => ⟨freeA_addr a f h.1, freeAs_addrs as (addr a f).2.2 _ h.2⟩

end

mutual

theorem evalE_opnd (m : M) : ∀ (e : E V O K) (f : Nat), evalE S m (opnd e f).1 = evalE S m e
  | .val _ c, _ => rfl
  | .comp _ op args, f => congrArg (S.op op) (evalEs_opnds m args (f + 1) (f + 1))
  | .load k idx, f => congrArg (S.read m k) (evalAs_addrs m idx f f)

theorem evalEs_opnds (m : M) : ∀ (es : List (E V O K)) (f x : Nat),
    evalEs S m (opnds es f x).1 = evalEs S m es
  | [], _, _ => rfl
  | e :: es, f, x => congrArg₂ List.cons (evalE_opnd m e f) (evalEs_opnds m es (opnd e f).2.2 _)

theorem evalA_addr (m : M) : ∀ (a : A V O K) (f : Nat), evalA S m (addr a f).1 = evalA S m a
  | .num k, _ => rfl
  | .arith mul l r, f => congrArg₂ (arithN mul) (evalA_addr m l f) (evalA_addr m r (addr l f).2.2)
  | .toAddr e, f => congrArg S.toInt (evalE_opnd m e f)

theorem evalAs_addrs (m : M) : ∀ (as : List (A V O K)) (f x : Nat),
    evalAs S m (addrs as f x).1 = evalAs S m as
  | [], _, _ => rfl
  | a :: as, f, x => congrArg₂ List.cons (evalA_addr m a f) (evalAs_addrs m as (addr a f).2.2 _)

end

mutual

/-- The loads named in the text of the instruction are of kinds with `P`. -/
def UsesE (P : K → Prop) : E V O K → Prop
  | .val _ _ => True
  | .comp _ _ _ => True
  | .load k idx => P k ∧ UsesAs P idx

def UsesA (P : K → Prop) : A V O K → Prop
  | .num _ => True
  | .arith _ l r => UsesA P l ∧ UsesA P r
  | .toAddr e => UsesE P e

def UsesAs (P : K → Prop) : List (A V O K) → Prop
  | [] => True
  | a :: as => UsesA P a ∧ UsesAs P as

end

mutual

theorem usesE_opnd {P : K → Prop} : ∀ (e : E V O K) (f : Nat), UsesE P e → UsesE P (opnd e f).1
  | .val _ c, _, _ => trivial
  | .comp _ op args, _, _ => trivial
  | .load k idx, f, h => ⟨h.1, usesAs_addrs idx f f h.2⟩

theorem usesA_addr {P : K → Prop} : ∀ (a : A V O K) (f : Nat), UsesA P a → UsesA P (addr a f).1
  | .num k, _, _ => trivial
  | .arith mul l r, f, h => ⟨usesA_addr l f h.1, usesA_addr r (addr l f).2.2 h.2⟩
  | .toAddr e, f, h => usesE_opnd e f h

theorem usesAs_addrs {P : K → Prop} : ∀ (as : List (A V O K)) (f x : Nat), UsesAs P as →
    UsesAs P (addrs as f x).1
  | [], _, _, _ => trivial
  | a :: as, f, x, h => ⟨usesA_addr a f h.1, usesAs_addrs as (addr a f).2.2 _ h.2⟩

end

mutual

theorem usesE_ev {P : K → Prop} {m m' : M} (hm : ∀ k, P k → ∀ l, S.read m' k l = S.read m k l) (n : Nat)
    (σ : Nat → V) : ∀ e : E V O K, UsesE P e → evO S n m' σ (prodE e).2 = evO S n m σ (prodE e).2
  | .val _ c, _ => rfl
  | .comp aux op args, _ => rfl
  | .load k idx, h => by
    have h1 := usesAs_ev hm n σ idx h.2
    show evO S n m' σ (.read k (prodAs idx).2) = evO S n m σ (.read k (prodAs idx).2)
    simp only [evO, h1]
    congr 1
    funext l
    exact hm k h.1 l

theorem usesA_ev {P : K → Prop} {m m' : M} (hm : ∀ k, P k → ∀ l, S.read m' k l = S.read m k l) (n : Nat)
    (σ : Nat → V) : ∀ a : A V O K, UsesA P a → evAO S n m' σ (prodA a).2 = evAO S n m σ (prodA a).2
  | .num k, _ => rfl
  | .arith mul l r, h => by
    have h1 := usesA_ev hm n σ l h.1
    have h2 := usesA_ev hm n σ r h.2
    show evAO S n m' σ (.arith mul (prodA l).2 (prodA r).2) = evAO S n m σ (.arith mul (prodA l).2 (prodA r).2)
    simp only [evAO, h1, h2]
  | .toAddr e, h => by
    have h1 := usesE_ev hm n σ e h
    show evAO S n m' σ (.toInt (prodE e).2) = evAO S n m σ (.toInt (prodE e).2)
    simp only [evAO, h1]

theorem usesAs_ev {P : K → Prop} {m m' : M} (hm : ∀ k, P k → ∀ l, S.read m' k l = S.read m k l) (n : Nat)
    (σ : Nat → V) : ∀ as : List (A V O K), UsesAs P as →
    evAOs S n m' σ (prodAs as).2 = evAOs S n m σ (prodAs as).2
  | [], _ => rfl
  | a :: as, h => by
    have h1 := usesA_ev hm n σ a h.1
    have h2 := usesAs_ev hm n σ as h.2
    show evAOs S n m' σ ((prodA a).2 :: (prodAs as).2) = evAOs S n m σ ((prodA a).2 :: (prodAs as).2)
    simp only [evAOs, h1, h2]

end

/-! Statements -/

/-- The stores for which the text that is evaluated late does not name temporaries, and for which
the text of a destination evaluated after the copy does not read what has been written (indices of
signals depend on variables only). -/
structure PlainStore (s : Store V O K) : Prop where
  srcTy : ∀ a, s.srcTy = some a → FreeA a
  dest : s.notify = true → FreeAs s.dest
  stable : s.notify = true → ∃ P : K → Prop, UsesAs P s.dest ∧
    ∀ m c d v z k, P k → ∀ l, S.read (S.write m s.kind c d v z) k l = S.read m k l

/-- The same for calls; here no code comes between the computation of the destination and its use. -/
def PlainCall (c : Call V O K F) : Prop :=
  c.notify = true → ∃ P : K → Prop, UsesAs P c.dest ∧
    ∀ m vs x d z k, P k → ∀ l, S.read (S.call m c.fn vs c.kind x d z) k l = S.read m k l

theorem runStore_ok (m : M) {n : Nat} {s : Store V O K} {f : Nat} (σ : Nat → V) (hp : PlainStore S s)
    (h : (buildStore s f).2 ≤ n) :
    ∃ σ', runStore S n m (buildStore s f).1 σ = some (dirStore S m s, σ') := by
  have h' : max (max (opnd s.src f).2.1 (addrs s.dest f f).2.1) (addrOpt s.cmp f).2 ≤ n := h
  obtain ⟨σ1, h1, _⟩ := runCmp_ok S m (c := s.cmp) (f := f) σ (le_trans (le_max_right _ _) h')
  have h2 : runSrcTy S n m s.srcTy σ1 = some σ1 := by
    cases ht : s.srcTy with
    | none => rfl
    | some a =>
      simp only [runSrcTy, (freeA_ok S m n σ1 a (hp.srcTy a ht)).1, runCode]
  obtain ⟨σ3, h3, _, _⟩ := runAs_ok S m (as := s.dest) (f := f) (x := f) σ1
    (le_trans (le_trans (le_max_right _ _) (le_max_left _ _)) h')
  obtain ⟨σ4, h4, _⟩ := runE_ok S m (e := s.src) (f := f) σ3
    (le_trans (le_trans (le_max_left _ _) (le_max_left _ _)) h')
  have h5 : evSrcTy S n m σ4 s.srcTy = some (cmpIdx S m s.srcTy) := by
    cases ht : s.srcTy with
    | none => rfl
    | some a => exact (freeA_ok S m n σ4 a (hp.srcTy a ht)).2
  have e1 : (buildStore s f).1.cmp = (addrOpt s.cmp f).1 := rfl
  have e2 : (buildStore s f).1.srcTy = s.srcTy := rfl
  have e3 : (buildStore s f).1.dest = (addrs s.dest f f).1 := rfl
  have e4 : (buildStore s f).1.src = (opnd s.src f).1 := rfl
  have e5 : (buildStore s f).1.kind = s.kind := rfl
  have e6 : (buildStore s f).1.dsize = s.dsize := rfl
  have e7 : (buildStore s f).1.ssize = s.ssize := rfl
  have e8 : (buildStore s f).1.notify = s.notify := rfl
  refine ⟨σ4, ?_⟩
  simp only [runStore, e1, e2, e3, e4, e5, e6, e7, e8, h1, h2, h3, h4, h5]
  cases hn : s.notify with
  | false => simp only [runNotify, dirStore, hn, Option.map_some, Bool.false_eq_true, if_false]
  | true =>
    have hfree := freeAs_addrs s.dest f f (hp.dest hn)
    obtain ⟨P, hu, hr⟩ := hp.stable hn
    simp only [runNotify, usesAs_ev S (hr m _ _ _ _) n σ4 _ (usesAs_addrs s.dest f f hu),
      (freeAs_ok S m n σ4 _ hfree).2, evalAs_addrs, dirStore, hn, Option.map_some, if_true]

theorem runArgs_ok (m : M) {n : Nat} : ∀ (es : List (E V O K)) (f x : Nat) (σ : Nat → V),
    (buildArgs es f x).2 ≤ n → ∃ σ', runArgs S n m (buildArgs es f x).1 σ = some (evalEs S m es, σ')
  | [], _, _, σ, _ => ⟨σ, rfl⟩
  | e :: es, f, x, σ, h => by
    have h' : (buildArgs es (f + 1) (max x (opnd e (f + 1)).2.1)).2 ≤ n := h
    obtain ⟨σ1, h1, _⟩ := runE_ok S m (e := e) (f := f + 1) σ
      (le_trans (le_trans (le_max_right _ _) (buildArgs_mono es _ _)) h')
    obtain ⟨σ2, h2⟩ := runArgs_ok m es (f + 1) (max x (opnd e (f + 1)).2.1) σ1 h'
    refine ⟨σ2, ?_⟩
    show runArgs S n m ((opnd e (f + 1)).1 :: (buildArgs es (f + 1) (max x (opnd e (f + 1)).2.1)).1) σ = _
    simp only [runArgs, h1, h2, Option.map_some]
    rfl
where
  buildArgs_mono : ∀ (es : List (E V O K)) (f x : Nat), x ≤ (buildArgs es f x).2
    | [], _, x => le_refl x
    | e :: es, f, x => le_trans (le_max_left _ _) (buildArgs_mono es (f + 1) (max x (opnd e (f + 1)).2.1))

theorem runCall_ok (m : M) {n : Nat} {c : Call V O K F} {f : Nat} (σ : Nat → V) (hp : PlainCall S c)
    (h : (buildCall c f).2 ≤ n) :
    ∃ σ', runCall S n m (buildCall c f).1 σ = some (dirCall S m c, σ') := by
  have h' : (buildArgs c.args f (max (addrOpt c.cmp f).2 (addrs c.dest f f).2.1)).2 ≤ n := h
  have hm := le_trans (runArgs_ok.buildArgs_mono c.args f (max (addrOpt c.cmp f).2 (addrs c.dest f f).2.1)) h'
  obtain ⟨σ1, h1⟩ := runArgs_ok S m c.args f _ σ h'
  obtain ⟨σ2, h2, _⟩ := runCmp_ok S m (c := c.cmp) (f := f) σ1 (le_trans (le_max_left _ _) hm)
  obtain ⟨σ3, h3, _, h4⟩ := runAs_ok S m (as := c.dest) (f := f) (x := f) σ2 (le_trans (le_max_right _ _) hm)
  have e1 : (buildCall c f).1.cmp = (addrOpt c.cmp f).1 := rfl
  have e2 : (buildCall c f).1.args =
    (buildArgs c.args f (max (addrOpt c.cmp f).2 (addrs c.dest f f).2.1)).1 := rfl
  have e3 : (buildCall c f).1.dest = (addrs c.dest f f).1 := rfl
  have e4 : (buildCall c f).1.fn = c.fn := rfl
  have e5 : (buildCall c f).1.kind = c.kind := rfl
  have e6 : (buildCall c f).1.size = c.size := rfl
  have e7 : (buildCall c f).1.notify = c.notify := rfl
  refine ⟨σ3, ?_⟩
  simp only [runCall, e1, e2, e3, e4, e5, e6, e7, h1, h2, h3]
  cases hn : c.notify with
  | false => simp only [runNotify, dirCall, hn, Option.map_some, Bool.false_eq_true, if_false]
  | true =>
    obtain ⟨P, hu, hr⟩ := hp hn
    simp only [runNotify, usesAs_ev S (hr m _ _ _ _) n σ3 _ (usesAs_addrs c.dest f f hu), h4,
      dirCall, hn, Option.map_some, if_true]

theorem buildLog_mono : ∀ (es : List (E V O K)) (f x : Nat), x ≤ (buildLog es f x).2
  | [], _, x => le_refl x
  | e :: es, f, x => le_trans (le_max_left _ _) (buildLog_mono es f (max x (opnd e f).2.1))

theorem runLog_ok {n : Nat} : ∀ (es : List (E V O K)) (f x : Nat) (m : M) (σ : Nat → V),
    (buildLog es f x).2 ≤ n → ∃ σ', runLog S n (buildLog es f x).1 m σ = some (dirLog S es m, σ')
  | [], _, _, m, σ, _ => ⟨σ, rfl⟩
  | e :: es, f, x, m, σ, h => by
    have h' : (buildLog es f (max x (opnd e f).2.1)).2 ≤ n := h
    obtain ⟨σ1, h1, _⟩ := runE_ok S m (e := e) (f := f) σ
      (le_trans (le_trans (le_max_right _ _) (buildLog_mono es _ _)) h')
    obtain ⟨σ2, h2⟩ := runLog_ok es f (max x (opnd e f).2.1) (S.print m (evalE S m e)) σ1 h'
    refine ⟨σ2, ?_⟩
    show runLog S n ((opnd e f).1 :: (buildLog es f (max x (opnd e f).2.1)).1) m σ = _
    simp only [runLog, h1]
    exact h2

mutual

/-- All stores and calls are plain. -/
def Plain : Stmt V O K F → Prop
  | .store s => PlainStore S s
  | .call c => PlainCall S c
  | .branch _ t e => PlainL t ∧ PlainL e
  | .loop _ b => PlainL b
  | .ret _ => True
  | .check _ => True
  | .log _ => True
  | .create _ => True

def PlainL : List (Stmt V O K F) → Prop
  | [] => True
  | s :: ss => Plain s ∧ PlainL ss

end

/-- The result without the temporaries. -/
def erase : Out (M × (Nat → V)) V → Out M V
  | .normal x => .normal x.1
  | .returned x v => .returned x.1 v
  | .failed x => .failed x.1
  | .fuel => .fuel
  | .bounds => .bounds

theorem buildList_mono : ∀ (ss : List (Stmt V O K F)) (f x : Nat), x ≤ (buildList ss f x).2
  | [], _, x => by simp [buildList]
  | s :: ss, f, x => by
    have := buildList_mono ss f (max x (buildStmt s f).2)
    simp only [buildList]
    exact le_trans (le_max_left _ _) this

mutual

theorem execS_ok {n : Nat} : ∀ (fuel : Nat) (st : Stmt V O K F) (f : Nat) (m : M) (σ : Nat → V),
    Plain S st → (buildStmt st f).2 ≤ n →
    erase (execS S n fuel (buildStmt st f).1 m σ) = dirS S fuel st m
  | 0, _, _, _, _, _, _ => by simp [execS, dirS, erase]
  | fuel + 1, .store s, f, m, σ, hp, h => by
    simp only [Plain] at hp
    simp only [buildStmt] at h ⊢
    obtain ⟨σ', h1⟩ := runStore_ok S m σ hp h
    simp only [execS, h1, dirS, ofOpt, erase]
  | fuel + 1, .call c, f, m, σ, hp, h => by
    simp only [Plain] at hp
    simp only [buildStmt] at h ⊢
    obtain ⟨σ', h1⟩ := runCall_ok S m σ hp h
    simp only [execS, h1, dirS, ofOpt, erase]
  | fuel + 1, .branch c t e, f, m, σ, hp, h => by
    simp only [Plain] at hp
    simp only [buildStmt] at h ⊢
    obtain ⟨σ', h1, _⟩ := runE_ok S m (e := c) (f := f) σ (le_trans (le_max_left _ _) h)
    simp only [execS, h1, dirS]
    split
    · exact execL_ok fuel t f 0 m σ' hp.1
        (le_trans (le_trans (le_max_left _ _) (le_max_right _ _)) h)
    · exact execL_ok fuel e f 0 m σ' hp.2
        (le_trans (le_trans (le_max_right _ _) (le_max_right _ _)) h)
  | fuel + 1, .loop c b, f, m, σ, hp, h => by
    have hp' := hp
    have h' := h
    simp only [Plain] at hp
    simp only [buildStmt] at h
    obtain ⟨σ', h1, _⟩ := runE_ok S m (e := c) (f := f) σ (le_trans (le_max_left _ _) h)
    have hb := execL_ok fuel b f 0 m σ' hp (le_trans (le_max_right _ _) h)
    have hl := fun m' σ'' => execS_ok fuel (.loop c b) f m' σ'' hp' h'
    simp only [buildStmt] at hl ⊢
    simp only [execS, h1, dirS]
    by_cases hc : S.isTrue (evalE S m c) = true
    · simp only [hc, if_true, ← hb]
      cases execL S n fuel (buildList b f 0).1 m σ' with
      | normal x =>
        obtain ⟨m', σ''⟩ := x
        simp only [erase]
        rw [← hl m' σ'']
        rfl
      | returned x v => rfl
      | failed x => rfl
      | fuel => rfl
      | bounds => rfl
    · simp only [hc, if_false, erase, Bool.false_eq_true]
  | fuel + 1, .ret e, f, m, σ, _, h => by
    simp only [buildStmt] at h ⊢
    obtain ⟨σ', h1, _⟩ := runE_ok S m (e := e) (f := f) σ h
    simp only [execS, h1, dirS, erase]
  | fuel + 1, .check e, f, m, σ, _, h => by
    simp only [buildStmt] at h ⊢
    obtain ⟨σ', h1, _⟩ := runE_ok S m (e := e) (f := f) σ h
    simp only [execS, h1, dirS]
    split <;> rfl
  | fuel + 1, .log es, f, m, σ, _, h => by
    simp only [buildStmt] at h ⊢
    obtain ⟨σ', h1⟩ := runLog_ok S es f 0 m σ h
    simp only [execS, h1, dirS, ofOpt, erase]
  | fuel + 1, .create e, f, m, σ, _, h => by
    simp only [buildStmt] at h ⊢
    obtain ⟨σ', h1, _⟩ := runE_ok S m (e := e) (f := f) σ h
    simp only [execS, h1, dirS, erase]

theorem execL_ok {n : Nat} : ∀ (fuel : Nat) (ss : List (Stmt V O K F)) (f x : Nat) (m : M) (σ : Nat → V),
    PlainL S ss → (buildList ss f x).2 ≤ n →
    erase (execL S n fuel (buildList ss f x).1 m σ) = dirL S fuel ss m
  | 0, _, _, _, _, _, _, _ => by simp [execL, dirL, erase]
  | fuel + 1, [], f, x, m, σ, _, _ => by simp [buildList, execL, dirL, erase]
  | fuel + 1, s :: ss, f, x, m, σ, hp, h => by
    simp only [PlainL] at hp
    simp only [buildList] at h ⊢
    have hs := execS_ok fuel s f m σ hp.1
      (le_trans (le_trans (le_max_right _ _) (buildList_mono ss f _)) h)
    simp only [execL, dirL, ← hs]
    cases execS S n fuel (buildStmt s f).1 m σ with
    | normal y =>
      obtain ⟨m', σ'⟩ := y
      exact execL_ok fuel ss f (max x (buildStmt s f).2) m' σ' hp.2 h
    | returned x v => rfl
    | failed x => rfl
    | fuel => rfl
    | bounds => rfl

end

end Verif.Slots
