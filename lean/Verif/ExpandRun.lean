import Verif.ExpandSim

/-!
# The expansion of constants keeps what a body does: statements
-/

set_option linter.unusedSimpArgs false
set_option linter.unusedVariables false
set_option linter.unusedSectionVars false

namespace Verif.Expand

variable {V : Type}

theorem holdSyms_nil (H : Env Ex) : holdSyms H [] = H := rfl

mutual
/-- Only declarations add to what is held, and only in the innermost block. -/
theorem expand_holder : ∀ (s : Stmt) (H : Env Ex), (expand s H).2.tail = H.tail
  | .ifThen c a, H => by simp only [expand]; exact expand_holder a H
  | .ifElse c a b, H => by
      simp only [expand]
      rw [expand_holder b, expand_holder a]
  | .loop c s, H => by simp only [expand]; exact expand_holder s H
  | .ret e, H => rfl
  | .init syms tail, H => by
      simp only [expand]
      have hadd : ∀ (H : Env Ex) (x : String) (e : Ex), (H.add x e).tail = H.tail := by
        intro H x e; cases H <;> rfl
      have inner : ∀ (es : List Ex) (n : String) (H : Env Ex),
          (es.foldl (fun H e => H.add n e) H).tail = H.tail := by
        intro es n
        induction es with
        | nil => intro H; rfl
        | cons a es ih => intro H; rw [List.foldl_cons, ih, hadd]
      have : ∀ (ss : List Sym) (H : Env Ex), (holdSyms H ss).tail = H.tail := by
        intro ss
        induction ss with
        | nil => intro H; rfl
        | cons s ss ih =>
          intro H
          show (holdSyms _ ss).tail = _
          rw [ih]
          dsimp only
          split
          · exact inner _ _ _
          · rfl
      exact this _ _
  | .subst x acc idx e, H => rfl
  | .under e, H => rfl
  | .ceq a b, H => rfl
  | .log es, H => rfl
  | .check e, H => rfl
  | .block ss, H => by
      simp only [expand]
      have := expandAll_holder ss H.push
      unfold Env.pop
      rw [this]
      rfl
theorem expandAll_holder : ∀ (ss : List Stmt) (H : Env Ex), (expandAll ss H).2.tail = H.tail
  | [], H => rfl
  | s :: ss, H => by
      simp only [expandAll]
      rw [expandAll_holder ss, expand_holder s]
end

theorem expand_keeps : ∀ (s : Stmt) (arr vis : List String) (H : Env Ex), Plain arr vis s →
    intro s = [] → (expand s H).2 = H
  | .ifThen c a, arr, vis, H, hp, _ => by
      simp only [Plain] at hp
      simp only [expand]; exact expand_keeps a arr vis H hp.1 hp.2
  | .ifElse c a b, arr, vis, H, hp, _ => by
      simp only [Plain] at hp
      simp only [expand]
      rw [expand_keeps a arr vis H hp.1 hp.2.1, expand_keeps b arr vis H hp.2.2.1 hp.2.2.2]
  | .loop c s, arr, vis, H, hp, _ => by
      simp only [Plain] at hp
      simp only [expand]; exact expand_keeps s arr vis H hp.1 hp.2
  | .ret e, _, _, H, _, _ => rfl
  | .init syms tail, _, _, H, _, hi => by
      have : syms = [] := by simpa [intro] using hi
      subst this
      rfl
  | .subst x acc idx e, _, _, H, _, _ => rfl
  | .under e, _, _, H, _, _ => rfl
  | .ceq a b, _, _, H, _, _ => rfl
  | .log es, _, _, H, _, _ => rfl
  | .check e, _, _, H, _, _ => rfl
  | .block ss, _, _, H, _, _ => by
      simp only [expand]
      have := expandAll_holder ss H.push
      unfold Env.pop
      rw [this]
      rfl

theorem adds_nil (s : Stmt) (h : intro s = []) (y : String) : ¬ adds s y := by
  cases s with
  | init syms tail =>
    have : syms = [] := by simpa [intro] using h
    subst this
    simp [adds]
  | _ => exact fun h => h

theorem iter_sim (S : Sem V) (n : Nat) (H : Env Ex) (F : String → Prop) (c : Ex) (s s' : Stmt)
    (vis : List String) (K : List (List String))
    (hb : ∀ σ : Env V, σ.keys = K → Inv S H F σ → run S n s' σ = run S n s σ ∧
      ∀ σ1 o t, run S n s σ = some ((σ1, o), t) → σ1.keys = K ∧
        (∀ y, F y → σ1.get y = σ.get y)) :
    ∀ (k : Nat) (σ : Env V), σ.keys = K → Inv S H F σ →
      iter (cond S (expandEx H c)) (run S n s') k σ = iter (cond S c) (run S n s) k σ ∧
      ∀ σ1 o t, iter (cond S c) (run S n s) k σ = some ((σ1, o), t) → σ1.keys = K ∧
        (∀ y, F y → σ1.get y = σ.get y) := by
  intro k
  induction k with
  | zero => intro σ _ _; exact ⟨rfl, fun σ1 o t h => by simp [iter] at h⟩
  | succ k ih =>
    intro σ hK hI
    have hc : cond S (expandEx H c) σ = cond S c σ := by
      unfold cond; rw [eval_expand S H F σ hI]
    obtain ⟨b1, b2⟩ := hb σ hK hI
    have hnext : ∀ σ1 o t, run S n s σ = some ((σ1, o), t) → Inv S H F σ1 := by
      intro σ1 o t h
      obtain ⟨k1, k2⟩ := b2 σ1 o t h
      exact hI.frame k2 (fun y hy => by rw [k1, ← hK]; exact hy)
    refine ⟨?_, ?_⟩
    · simp only [iter]
      rw [hc]
      apply bind_congr
      intro b t _
      cases b with
      | false => rfl
      | true =>
        simp only [if_true]
        rw [b1]
        apply bind_congr
        intro r t1 hr
        obtain ⟨σ1, o⟩ := r
        cases o with
        | some v => rfl
        | none => exact (ih σ1 (b2 σ1 none t1 hr).1 (hnext σ1 none t1 hr)).1
    · intro σ2 o t h
      simp only [iter, bind_some] at h
      obtain ⟨b, t1, t2, h1, h2, rfl⟩ := h
      cases b with
      | false =>
        simp only [Bool.false_eq_true, if_false, pure_some] at h2
        obtain ⟨h3, _⟩ := h2
        obtain ⟨rfl, rfl⟩ := Prod.mk.inj h3
        exact ⟨hK, fun _ _ => rfl⟩
      | true =>
        simp only [if_true, bind_some] at h2
        obtain ⟨⟨σ1, o1⟩, t3, t4, h3, h4, rfl⟩ := h2
        obtain ⟨k1, k2⟩ := b2 σ1 o1 t3 h3
        cases o1 with
        | some v =>
          simp only [pure_some] at h4
          obtain ⟨h5, _⟩ := h4
          obtain ⟨rfl, rfl⟩ := Prod.mk.inj h5
          exact ⟨k1, k2⟩
        | none =>
          obtain ⟨j1, j2⟩ := (ih σ1 k1 (hnext σ1 none t3 h3)).2 σ2 o t4 h4
          exact ⟨j1, fun y hy => by rw [j2 y hy, k2 y hy]⟩

/-- Expansion keeps what the statement does. -/
def Kept (S : Sem V) (n : Nat) (s : Stmt) : Prop :=
  ∀ (arr vis : List String) (F : String → Prop) (H : Env Ex) (σ : Env V),
    Plain arr vis s → (∀ x, x ∈ vis ↔ x ∈ σ.keys.flatten) → σ ≠ [] → H ≠ [] →
    (∀ y, F y → y ∈ vis) → Ok F s → Inv S H F σ →
    run S n (expand s H).1 σ = run S n s σ ∧
    ∀ σ1 o t, run S n s σ = some ((σ1, o), t) →
      σ1.keys = addKeys (intro s) σ.keys ∧ (∀ y, F y → σ1.get y = σ.get y) ∧
      (o = none → Inv S (expand s H).2 (fun y => F y ∨ adds s y) σ1)

/-- The same for the statements of a block. -/
def KeptAll (S : Sem V) (n : Nat) (ss : List Stmt) : Prop :=
  ∀ (arr vis : List String) (F : String → Prop) (H : Env Ex) (σ : Env V),
    PlainAll arr vis ss → (∀ x, x ∈ vis ↔ x ∈ σ.keys.flatten) → σ ≠ [] → H ≠ [] →
    (∀ y, F y → y ∈ vis) → OkAll F ss → Inv S H F σ →
    runAll S n (expandAll ss H).1 σ = runAll S n ss σ ∧
    ∀ σ1 o t, runAll S n ss σ = some ((σ1, o), t) →
      (∃ b, σ1.keys = b :: σ.keys.tail ∧ ∀ y ∈ b, y ∈ introAll ss ∨ y ∈ σ.keys.headD []) ∧
      ∀ y, F y → σ1.get y = σ.get y

/-- A statement that neither declares nor assigns. -/
theorem kept_still (S : Sem V) (n : Nat) (s : Stmt) (hi : intro s = [])
    (hr : ∀ σ σ1 o t, run S n s σ = some ((σ1, o), t) → σ1 = σ)
    (he : ∀ H F σ, Inv S H F σ → run S n (expand s H).1 σ = run S n s σ)
    (hh : ∀ H, (expand s H).2 = H) : Kept S n s := by
  intro arr vis F H σ hp hv hσ hH hF hok hI
  refine ⟨he H F σ hI, ?_⟩
  intro σ1 o t h
  have := hr σ σ1 o t h
  subst this
  refine ⟨by rw [hi, addKeys_nil], fun _ _ => rfl, fun _ => ?_⟩
  rw [hh]
  exact hI.mono fun y hy => Or.inl hy

mutual
theorem kept (S : Sem V) (hS : S.Silent) (n : Nat) : ∀ s : Stmt, Kept S n s
  | .ifThen c a => by
      intro arr vis F H σ hp hv hσ hH hF hok hI
      simp only [Plain] at hp
      simp only [Ok] at hok
      obtain ⟨a1, a2⟩ := kept S hS n a arr vis F H σ hp.1 hv hσ hH hF hok hI
      have hc : cond S (expandEx H c) σ = cond S c σ := by
        unfold cond; rw [eval_expand S H F σ hI]
      have hh := expand_keeps a arr vis H hp.1 hp.2
      refine ⟨?_, ?_⟩
      · simp only [expand, run]
        rw [hc, a1]
      · intro σ1 o t h
        simp only [run, bind_some] at h
        obtain ⟨b, t1, t2, h1, h2, rfl⟩ := h
        simp only [expand]
        rw [hh] at a2 ⊢
        cases b with
        | false =>
          simp only [Bool.false_eq_true, if_false, pure_some] at h2
          obtain ⟨h3, _⟩ := h2
          obtain ⟨rfl, rfl⟩ := Prod.mk.inj h3
          exact ⟨(addKeys_nil _).symm, fun _ _ => rfl, fun _ => hI.mono fun y hy => Or.inl hy⟩
        | true =>
          simp only [if_true] at h2
          obtain ⟨k1, k2, k3⟩ := a2 σ1 o t2 h2
          rw [hp.2] at k1
          refine ⟨k1, k2, fun ho => (k3 ho).mono fun y hy => ?_⟩
          exact hy.imp id fun h0 => absurd h0 (adds_nil a hp.2 y)
  | .ifElse c a b => by
      intro arr vis F H σ hp hv hσ hH hF hok hI
      simp only [Plain] at hp
      simp only [Ok] at hok
      obtain ⟨a1, a2⟩ := kept S hS n a arr vis F H σ hp.1 hv hσ hH hF hok.1 hI
      obtain ⟨b1, b2⟩ := kept S hS n b arr vis F H σ hp.2.2.1 hv hσ hH hF hok.2 hI
      have hc : cond S (expandEx H c) σ = cond S c σ := by
        unfold cond; rw [eval_expand S H F σ hI]
      have hha := expand_keeps a arr vis H hp.1 hp.2.1
      have hhb := expand_keeps b arr vis H hp.2.2.1 hp.2.2.2
      refine ⟨?_, ?_⟩
      · simp only [expand, run]
        rw [hc, hha, a1, b1]
      · intro σ1 o t h
        simp only [run, bind_some] at h
        obtain ⟨q, t1, t2, h1, h2, rfl⟩ := h
        simp only [expand]
        rw [hha, hhb]
        rw [hha] at a2
        rw [hhb] at b2
        cases q with
        | false =>
          simp only [Bool.false_eq_true, if_false] at h2
          obtain ⟨k1, k2, k3⟩ := b2 σ1 o t2 h2
          rw [hp.2.2.2] at k1
          refine ⟨k1, k2, fun ho => (k3 ho).mono fun y hy => ?_⟩
          exact hy.imp id fun h0 => absurd h0 (adds_nil b hp.2.2.2 y)
        | true =>
          simp only [if_true] at h2
          obtain ⟨k1, k2, k3⟩ := a2 σ1 o t2 h2
          rw [hp.2.1] at k1
          refine ⟨k1, k2, fun ho => (k3 ho).mono fun y hy => ?_⟩
          exact hy.imp id fun h0 => absurd h0 (adds_nil a hp.2.1 y)
  | .loop c s => by
      intro arr vis F H σ hp hv hσ hH hF hok hI
      simp only [Plain] at hp
      simp only [Ok] at hok
      have hh := expand_keeps s arr vis H hp.1 hp.2
      have hb : ∀ τ : Env V, τ.keys = σ.keys → Inv S H F τ →
          run S n (expand s H).1 τ = run S n s τ ∧
          ∀ σ1 o t, run S n s τ = some ((σ1, o), t) → σ1.keys = σ.keys ∧
            (∀ y, F y → σ1.get y = τ.get y) := by
        intro τ hτ hIτ
        obtain ⟨a1, a2⟩ := kept S hS n s arr vis F H τ hp.1 (by rw [hτ]; exact hv)
          ((keys_ne τ).1 (by rw [hτ]; exact (keys_ne σ).2 hσ)) hH hF hok hIτ
        refine ⟨a1, fun σ1 o t h => ?_⟩
        obtain ⟨k1, k2, _⟩ := a2 σ1 o t h
        exact ⟨by rw [k1, hp.2, addKeys_nil, hτ], k2⟩
      obtain ⟨i1, i2⟩ := iter_sim S n H F c s (expand s H).1 vis σ.keys hb n σ rfl hI
      refine ⟨?_, ?_⟩
      · simp only [expand, run]; exact i1
      · intro σ1 o t h
        simp only [run] at h
        obtain ⟨k1, k2⟩ := i2 σ1 o t h
        refine ⟨by rw [k1]; exact (addKeys_nil _).symm, k2, fun _ => ?_⟩
        simp only [expand]
        rw [hh]
        exact (hI.frame k2 (fun y hy => by rw [k1]; exact hy)).mono fun y hy => Or.inl hy
  | .ret e => kept_still S n _ rfl
      (by
        intro σ σ1 o t h
        simp only [run, bind_some, pure_some] at h
        obtain ⟨_, _, _, _, ⟨h1, _⟩, _⟩ := h
        exact (Prod.mk.inj h1).1)
      (by
        intro H F σ hI
        simp only [expand, run]
        rw [eval_expand S H F σ hI])
      (fun _ => rfl)
  | .init syms tail => by
      intro arr vis F H σ hp hv hσ hH hF hok hI
      exact init_sim S hS n H F arr vis syms tail σ hp hv hσ hH hF hok hI
  | .subst x acc idx e => by
      intro arr vis F H σ hp hv hσ hH hF hok hI
      simp only [Ok] at hok
      refine ⟨?_, ?_⟩
      · simp only [expand, run]
        rw [eval_expand S H F σ hI, evalAll_expand S H F σ hI]
      · intro σ1 o t h
        simp only [run, bind_some, pure_some] at h
        obtain ⟨v, t1, t2, h1, ⟨is, t3, t4, h2, ⟨σ2, t5, t6, h3, ⟨h4, _⟩, _⟩, _⟩, _⟩ := h
        obtain ⟨rfl, rfl⟩ := Prod.mk.inj h4
        obtain ⟨old, w, g1, g2, rfl, _⟩ := (assign_some _ _ _ _ _ _ _ _).1 h3
        have hg : ∀ y, F y → (σ.set x w).get y = σ.get y := by
          intro y hy
          apply get_set_ne
          rintro rfl
          exact hok hy
        refine ⟨by rw [keys_set]; exact (addKeys_nil _).symm, hg, fun _ => ?_⟩
        exact (hI.frame hg (fun y hy => by rw [keys_set]; exact hy)).mono fun y hy => Or.inl hy
  | .under e => kept_still S n _ rfl
      (by
        intro σ σ1 o t h
        simp only [run, bind_some, pure_some] at h
        obtain ⟨_, _, _, _, ⟨h1, _⟩, _⟩ := h
        exact (Prod.mk.inj h1).1)
      (by
        intro H F σ hI
        simp only [expand, run]
        rw [eval_expand S H F σ hI])
      (fun _ => rfl)
  | .ceq a b => kept_still S n _ rfl
      (by
        intro σ σ1 o t h
        simp only [run, bind_some] at h
        obtain ⟨_, _, _, _, ⟨_, _, _, _, h1, _⟩, _⟩ := h
        simp only [Option.some.injEq, Prod.mk.injEq] at h1
        exact h1.1.1.symm)
      (by
        intro H F σ hI
        simp only [expand, run]
        rw [eval_expand S H F σ hI, eval_expand S H F σ hI])
      (fun _ => rfl)
  | .log es => kept_still S n _ rfl
      (by
        intro σ σ1 o t h
        simp only [run, bind_some] at h
        obtain ⟨_, _, _, _, h1, _⟩ := h
        simp only [Option.some.injEq, Prod.mk.injEq] at h1
        exact h1.1.1.symm)
      (by
        intro H F σ hI
        simp only [expand, run]
        rw [evalAll_expand S H F σ hI])
      (fun _ => rfl)
  | .check e => kept_still S n _ rfl
      (by
        intro σ σ1 o t h
        simp only [run, bind_some] at h
        obtain ⟨b, _, _, _, h1, _⟩ := h
        cases b with
        | false => simp at h1
        | true =>
          simp only [if_true, pure_some] at h1
          exact (Prod.mk.inj h1.1).1)
      (by
        intro H F σ hI
        simp only [expand, run, cond]
        rw [eval_expand S H F σ hI])
      (fun _ => rfl)
  | .block ss => by
      intro arr vis F H σ hp hv hσ hH hF hok hI
      have hp' := hp
      simp only [Plain] at hp
      simp only [Ok] at hok
      have hv' : ∀ x, x ∈ vis ↔ x ∈ σ.push.keys.flatten := by
        intro x; rw [keys_push, List.flatten_cons, List.nil_append]; exact hv x
      have hI' : Inv S H.push F σ.push := by
        intro x e hx
        rw [get_push] at hx
        exact (hI.frame (σ' := σ.push) (fun y _ => get_push σ y) (fun y hy => by
          rw [keys_push, List.flatten_cons, List.nil_append]; exact hy)) x e hx
      obtain ⟨a1, a2⟩ := keptAll S hS n ss arr vis F H.push σ.push hp hv' (by simp [Env.push])
        (by simp [Env.push]) hF hok hI'
      refine ⟨?_, ?_⟩
      · simp only [expand, run]
        rw [a1]
      · intro σ1 o t h
        simp only [run, bind_some, pure_some] at h
        obtain ⟨⟨σ2, o2⟩, t1, t2, h1, ⟨h2, _⟩, _⟩ := h
        obtain ⟨rfl, rfl⟩ := Prod.mk.inj h2
        obtain ⟨⟨b, k1, k2⟩, k3⟩ := a2 σ2 o t1 h1
        have hkeys : σ2.pop.keys = σ.keys := by
          rw [keys_pop, k1]; rfl
        have hg : ∀ y, F y → σ2.pop.get y = σ.get y := by
          intro y hy
          rw [get_pop, k3 y hy, get_push]
          rw [k1]
          intro h0
          rcases k2 y h0 with h0 | h0
          · exact plainAll_fresh ss arr vis hp y h0 (hF y hy)
          · simp [keys_push] at h0
        refine ⟨by rw [hkeys]; exact (addKeys_nil _).symm, hg, fun _ => ?_⟩
        rw [expand_keeps (.block ss) arr vis H hp' rfl]
        exact (hI.frame hg (fun y hy => by rw [hkeys]; exact hy)).mono fun y hy => Or.inl hy
theorem keptAll (S : Sem V) (hS : S.Silent) (n : Nat) : ∀ ss : List Stmt, KeptAll S n ss
  | [] => by
      intro arr vis F H σ hp hv hσ hH hF hok hI
      refine ⟨rfl, ?_⟩
      intro σ1 o t h
      simp only [runAll, pure_some] at h
      obtain ⟨h1, _⟩ := h
      obtain ⟨rfl, rfl⟩ := Prod.mk.inj h1
      refine ⟨?_, fun _ _ => rfl⟩
      cases hk : σ1.keys with
      | nil => exact absurd hk ((keys_ne σ1).2 hσ)
      | cons b K => exact ⟨b, rfl, fun y hy => Or.inr hy⟩
  | s :: ss => by
      intro arr vis F H σ hp hv hσ hH hF hok hI
      simp only [PlainAll] at hp
      simp only [OkAll] at hok
      obtain ⟨a1, a2⟩ := kept S hS n s arr vis F H σ hp.1 hv hσ hH hF hok.1 hI
      have hH' : (expand s H).2 ≠ [] := by
        by_cases hi : ∃ syms tail, s = .init syms tail
        · obtain ⟨syms, tail, rfl⟩ := hi
          simp only [expand]
          have hadd : ∀ (H : Env Ex) (x : String) (e : Ex), H ≠ [] → H.add x e ≠ [] := by
            intro H x e hH; cases H with
            | nil => exact absurd rfl hH
            | cons b H => simp [Env.add]
          have inner : ∀ (es : List Ex) (n : String) (H : Env Ex), H ≠ [] →
              es.foldl (fun H e => H.add n e) H ≠ [] := by
            intro es n
            induction es with
            | nil => intro H hH; exact hH
            | cons a es ih => intro H hH; rw [List.foldl_cons]; exact ih _ (hadd _ _ _ hH)
          have : ∀ (ss : List Sym) (H : Env Ex), H ≠ [] → holdSyms H ss ≠ [] := by
            intro ss
            induction ss with
            | nil => intro H hH; exact hH
            | cons s ss ih =>
              intro H hH
              show holdSyms _ ss ≠ []
              apply ih
              dsimp only
              split
              · exact inner _ _ _ hH
              · exact hH
          exact this _ _ hH
        · have hi' : intro s = [] := by
            cases s <;> first | rfl | exact absurd ⟨_, _, rfl⟩ hi
          rw [expand_keeps s arr vis H hp.1 hi']
          exact hH
      have hnext : ∀ σ1 t, run S n s σ = some ((σ1, none), t) →
          runAll S n (expandAll ss (expand s H).2).1 σ1 = runAll S n ss σ1 ∧
          ∀ σ2 o t, runAll S n ss σ1 = some ((σ2, o), t) →
            (∃ b, σ2.keys = b :: σ1.keys.tail ∧
              ∀ y ∈ b, y ∈ introAll ss ∨ y ∈ σ1.keys.headD []) ∧
            ∀ y, F y → σ2.get y = σ1.get y := by
        intro σ1 t h
        obtain ⟨k1, k2, k3⟩ := a2 σ1 none t h
        have hne : σ1.keys ≠ [] := by
          rw [k1]
          cases hk : σ.keys with
          | nil => exact absurd hk ((keys_ne σ).2 hσ)
          | cons b K => simp [addKeys]
        have hv1 : ∀ x, x ∈ intro s ++ vis ↔ x ∈ σ1.keys.flatten := by
          intro x
          rw [k1, mem_addKeys _ _ ((keys_ne σ).2 hσ), List.mem_append, hv x]
        have hF1 : ∀ y, (F y ∨ adds s y) → y ∈ intro s ++ vis := by
          rintro y (hy | hy)
          · exact List.mem_append_right _ (hF y hy)
          · cases s with
            | init syms tail =>
              obtain ⟨q, hq, _, hqy⟩ := hy
              have hpp := hp.1
              simp only [Plain] at hpp
              rcases hqy with rfl | hqy
              · exact List.mem_append_left _ (List.mem_reverse.2 (List.mem_map_of_mem hq))
              · exact plainSyms_reads _ syms arr vis hpp.1 q hq y hqy
            | _ => exact absurd hy (fun h => h)
        obtain ⟨j1, j2⟩ := keptAll S hS n ss _ _ (fun y => F y ∨ adds s y) (expand s H).2 σ1 hp.2
          hv1 ((keys_ne σ1).1 hne) hH' hF1 hok.2 (k3 rfl)
        exact ⟨j1, fun σ2 o t h => ⟨(j2 σ2 o t h).1, fun y hy => (j2 σ2 o t h).2 y (Or.inl hy)⟩⟩
      refine ⟨?_, ?_⟩
      · simp only [expandAll, runAll]
        rw [a1]
        apply bind_congr
        intro r t hr
        obtain ⟨σ1, o⟩ := r
        cases o with
        | some v => rfl
        | none => exact (hnext σ1 t hr).1
      · intro σ2 o t h
        simp only [runAll, bind_some] at h
        obtain ⟨⟨σ1, o1⟩, t1, t2, h1, h2, _⟩ := h
        obtain ⟨k1, k2, k3⟩ := a2 σ1 o1 t1 h1
        obtain ⟨b0, K, hk⟩ : ∃ b0 K, σ.keys = b0 :: K := by
          cases hk : σ.keys with
          | nil => exact absurd hk ((keys_ne σ).2 hσ)
          | cons b K => exact ⟨b, K, rfl⟩
        have hk1 : σ1.keys = (intro s ++ b0) :: K := by rw [k1, hk]; rfl
        cases o1 with
        | some v =>
          simp only [pure_some] at h2
          obtain ⟨h3, _⟩ := h2
          obtain ⟨rfl, rfl⟩ := Prod.mk.inj h3
          refine ⟨⟨intro s ++ b0, by rw [hk1, hk]; rfl, ?_⟩, k2⟩
          intro y hy
          rw [hk]
          rcases List.mem_append.1 hy with hy | hy
          · exact Or.inl (by simp [introAll, hy])
          · exact Or.inr hy
        | none =>
          obtain ⟨⟨b, j1, j2⟩, j3⟩ := (hnext σ1 t1 h1).2 σ2 o t2 h2
          refine ⟨⟨b, by rw [j1, hk1, hk]; rfl, ?_⟩, fun y hy => by rw [j3 y hy, k2 y hy]⟩
          intro y hy
          rw [hk]
          rcases j2 y hy with hy | hy
          · exact Or.inl (by simp [introAll, hy])
          · rw [hk1] at hy
            rcases List.mem_append.1 hy with hy | hy
            · exact Or.inl (by simp [introAll, hy])
            · exact Or.inr hy
end

/-! ## Calls that log -/

/-- The same values, without what calls log. -/
def Sem.hush (S : Sem V) : Sem V :=
  { S with node := fun k vs => (S.node k vs).map fun p => (p.1, []) }

theorem hush_silent (S : Sem V) : S.hush.Silent := by
  intro k vs v t h
  simp only [Sem.hush, Option.map_eq_some_iff] at h
  obtain ⟨p, _, hp⟩ := h
  exact (Prod.mk.inj hp).2.symm

/-- A computation without its trace. -/
def W.val {α : Type} (r : W V α) : Option α := r.map Prod.fst

theorem val_bind {α β : Type} (r r' : W V α) (f g : α → W V β) (h : r.val = r'.val)
    (hf : ∀ a, (f a).val = (g a).val) : (W.bind r f).val = (W.bind r' g).val := by
  have key : ∀ (q : W V α) (f : α → W V β), (W.bind q f).val = q.val.bind fun a => (f a).val := by
    intro q f
    unfold W.bind W.val
    cases q with
    | none => rfl
    | some p =>
      obtain ⟨a, t⟩ := p
      simp only [Option.map_some, Option.bind_some]
      cases f a with
      | none => rfl
      | some q => rfl
  rw [key, key, h]
  congr 1
  funext a
  exact hf a

mutual
theorem eval_hush (S : Sem V) (σ : Env V) : ∀ e, (eval S.hush σ e).val = (eval S σ e).val
  | .num n => by simp only [eval]; rfl
  | .var x acc idx => by
      simp only [eval]
      exact val_bind _ _ _ _ (evalAll_hush S σ idx) fun a => rfl
  | .node k es => by
      simp only [eval]
      refine val_bind _ _ _ _ (evalAll_hush S σ es) fun a => ?_
      show W.val ((S.node k a).map fun p => (p.1, ([] : List (Tr V)))) = _
      unfold W.val
      rw [Option.map_map]
      rfl
  | .switch c a b => by
      simp only [eval]
      refine val_bind _ _ _ _ (eval_hush S σ c) fun v => ?_
      refine val_bind _ _ _ _ rfl fun t => ?_
      cases t with
      | true => exact eval_hush S σ a
      | false => exact eval_hush S σ b
  | .sugar => by simp only [eval]
theorem evalAll_hush (S : Sem V) (σ : Env V) :
    ∀ es, (evalAll S.hush σ es).val = (evalAll S σ es).val
  | [] => by simp only [evalAll]
  | e :: es => by
      simp only [evalAll]
      refine val_bind _ _ _ _ (eval_hush S σ e) fun v => ?_
      exact val_bind _ _ _ _ (evalAll_hush S σ es) fun vs => rfl
end

theorem runSubs_hush (S : Sem V) : ∀ (ps : List (String × Ex)) (σ : Env V),
    (runSubs S.hush ps σ).val = (runSubs S ps σ).val := by
  intro ps
  induction ps with
  | nil => intro σ; rfl
  | cons p ps ih =>
    intro σ
    simp only [runSubs]
    refine val_bind _ _ _ _ (eval_hush S σ p.2) fun v => ?_
    exact val_bind _ _ _ _ rfl fun σ1 => ih σ1

theorem runSyms_hush (S : Sem V) : ∀ (ss : List Sym) (σ : Env V),
    (runSyms S.hush ss σ).val = (runSyms S ss σ).val := by
  intro ss
  induction ss with
  | nil => intro σ; rfl
  | cons s ss ih =>
    intro σ
    simp only [runSyms]
    refine val_bind _ _ _ _ (evalAll_hush S σ s.dims) fun ds => ?_
    refine val_bind _ _ _ _ rfl fun _ => ?_
    refine val_bind _ _ _ _ rfl fun v => ?_
    exact val_bind _ _ _ _ (runSubs_hush S _ _) fun σ1 => ih σ1

theorem cond_hush (S : Sem V) (c : Ex) (σ : Env V) :
    (cond S.hush c σ).val = (cond S c σ).val := by
  unfold cond
  exact val_bind _ _ _ _ (eval_hush S σ c) fun v => rfl

theorem iter_hush (t t' : Env V → W V Bool) (b b' : Env V → W V (Env V × Option V))
    (ht : ∀ σ, (t σ).val = (t' σ).val) (hb : ∀ σ, (b σ).val = (b' σ).val) :
    ∀ (k : Nat) (σ : Env V), (iter t b k σ).val = (iter t' b' k σ).val := by
  intro k
  induction k with
  | zero => intro σ; rfl
  | succ k ih =>
    intro σ
    simp only [iter]
    refine val_bind _ _ _ _ (ht σ) fun q => ?_
    cases q with
    | false => rfl
    | true =>
      simp only [if_true]
      refine val_bind _ _ _ _ (hb σ) fun r => ?_
      obtain ⟨σ1, o⟩ := r
      cases o with
      | some v => rfl
      | none => exact ih σ1

mutual
theorem run_hush (S : Sem V) (n : Nat) :
    ∀ (s : Stmt) (σ : Env V), (run S.hush n s σ).val = (run S n s σ).val
  | .ifThen c a, σ => by
      simp only [run]
      refine val_bind _ _ _ _ (cond_hush S c σ) fun b => ?_
      cases b with
      | false => rfl
      | true => exact run_hush S n a σ
  | .ifElse c a b, σ => by
      simp only [run]
      refine val_bind _ _ _ _ (cond_hush S c σ) fun q => ?_
      cases q with
      | false => exact run_hush S n b σ
      | true => exact run_hush S n a σ
  | .loop c s, σ => by
      simp only [run]
      exact iter_hush _ _ _ _ (cond_hush S c) (run_hush S n s) n σ
  | .ret e, σ => by
      simp only [run]
      exact val_bind _ _ _ _ (eval_hush S σ e) fun v => rfl
  | .init syms tail, σ => by
      simp only [run]
      refine val_bind _ _ _ _ (runSyms_hush S syms σ) fun σ1 => ?_
      exact val_bind _ _ _ _ (runSubs_hush S tail σ1) fun σ2 => rfl
  | .subst x acc idx e, σ => by
      simp only [run]
      refine val_bind _ _ _ _ (eval_hush S σ e) fun v => ?_
      refine val_bind _ _ _ _ (evalAll_hush S σ idx) fun is => ?_
      exact val_bind _ _ _ _ rfl fun σ1 => rfl
  | .under e, σ => by
      simp only [run]
      exact val_bind _ _ _ _ (eval_hush S σ e) fun v => rfl
  | .ceq a b, σ => by
      simp only [run]
      refine val_bind _ _ _ _ (eval_hush S σ a) fun v => ?_
      exact val_bind _ _ _ _ (eval_hush S σ b) fun w => rfl
  | .log es, σ => by
      simp only [run]
      exact val_bind _ _ _ _ (evalAll_hush S σ es) fun vs => rfl
  | .check e, σ => by
      simp only [run]
      exact val_bind _ _ _ _ (cond_hush S e σ) fun b => rfl
  | .block ss, σ => by
      simp only [run]
      exact val_bind _ _ _ _ (runAll_hush S n ss σ.push) fun r => rfl
theorem runAll_hush (S : Sem V) (n : Nat) :
    ∀ (ss : List Stmt) (σ : Env V), (runAll S.hush n ss σ).val = (runAll S n ss σ).val
  | [], σ => by simp only [runAll]
  | s :: ss, σ => by
      simp only [runAll]
      refine val_bind _ _ _ _ (run_hush S n s σ) fun r => ?_
      obtain ⟨σ1, o⟩ := r
      cases o with
      | some v => rfl
      | none => exact runAll_hush S n ss σ1
end

theorem call_hush (S : Sem V) (n : Nat) (params : List String) (body : Stmt) (args : List V) :
    (call S.hush n params body args).val = (call S n params body args).val := by
  unfold call
  exact val_bind _ _ _ _ (run_hush S n body _) fun r => rfl

/-! ## Whole bodies -/

theorem foldl_add {α : Type} (g : String → α) : ∀ (params : List String) (b : List (String × α))
    (E : Env α), params.foldl (fun (E : Env α) p => Env.add E p (g p)) (b :: E) =
      ((params.map fun p => (p, g p)).reverse ++ b) :: E := by
  intro params
  induction params with
  | nil => intro b E; rfl
  | cons p ps ih =>
    intro b E
    rw [List.foldl_cons]
    show ps.foldl _ (((p, g p) :: b) :: E) = _
    rw [ih]
    simp

theorem keys_args (params : List String) (args : List V) (h : params.length = args.length) :
    Env.keys [(params.zip args).reverse] = [params.reverse] := by
  unfold Env.keys
  simp only [List.map_cons, List.map_nil, List.map_reverse]
  rw [List.map_fst_zip (by omega)]

theorem keys_params {α : Type} (g : String → α) (params : List String) :
    Env.keys [((params.map fun p => (p, g p)).reverse ++ [] : List (String × α))] =
      [params.reverse] := by
  unfold Env.keys
  simp [Function.comp_def]

/-- The body of a function or of a bus: `g` are the tags of the parameters, `H` what is held for
them. -/
theorem body_kept (S : Sem V) (hS : S.Silent) (n : Nat) (params : List String) (arr : List String)
    (ss : List Stmt) (tag : Bool) (H : Env Ex) (hH : H ≠ []) (body' : Stmt) (E : Env Bool)
    (harr : ∀ y ∈ arr, y ∈ params ∧ tag = false)
    (hheld : ∀ x e, H.get x = some e → x ∈ params ∧ e = .var x [] [])
    (hp : Plain arr params (.block ss))
    (hi : infer (.block ss) (params.foldl (fun (E : Env Bool) p => Env.add E p tag) [[]]) = some (body', E))
    (args : List V) (hl : params.length = args.length) :
    call S n params (expand body' H).1 args = call S n params body' args := by
  rw [foldl_add (fun _ => tag)] at hi
  have hmem : ∀ x, x ∈ params ↔ x ∈ (Env.keys
      [((params.map fun p => (p, tag)).reverse ++ [] : List (String × Bool))]).flatten := by
    intro x; rw [keys_params]; simp
  have hget : ∀ y ∈ arr, Env.get
      [((params.map fun p => (p, tag)).reverse ++ [] : List (String × Bool))] y ≠ some true := by
    intro y hy
    obtain ⟨_, ht⟩ := harr y hy
    subst ht
    intro h0
    unfold Env.get at h0
    simp only [List.flatten_cons, List.flatten_nil, List.append_nil] at h0
    have : ∀ (l : List (String × Bool)), (∀ p ∈ l, p.2 = false) → l.lookup y ≠ some true := by
      intro l
      induction l with
      | nil => intro _; simp
      | cons p l ih =>
        intro hl
        obtain ⟨z, b⟩ := p
        rw [List.lookup_cons]
        have hb : b = false := hl (z, b) (by simp)
        subst hb
        cases y == z with
        | true => simp
        | false => exact ih (fun q hq => hl q (by simp [hq]))
    refine this _ ?_ h0
    intro p hpm
    rw [List.mem_reverse] at hpm
    obtain ⟨q, _, rfl⟩ := List.mem_map.1 hpm
    rfl
  obtain ⟨k1, k2, k3, k4, k5, k6, k7⟩ := infer_spec (.block ss) arr params _ body' E hp hmem
    (by simp) (fun y hy => ⟨(harr y hy).1, hget y hy⟩) hi
  have hok : Ok (fun _ => False) body' := (k7 (by simp)).2 _ (by simp)
  have hσ : ∀ x, x ∈ params ↔ x ∈ (Env.keys [(params.zip args).reverse]).flatten := by
    intro x; rw [keys_args _ _ hl]; simp
  have hI : Inv S H (fun _ => False) [(params.zip args).reverse] := by
    intro x e hx
    obtain ⟨hxp, rfl⟩ := hheld x e hx
    obtain ⟨v, hv⟩ := (get_some_iff _ x).2 ((hσ x).1 hxp)
    exact ⟨v, hv, by rw [eval_var, hv]; rfl, Or.inl rfl⟩
  unfold call
  rw [(kept S hS n body' arr params (fun _ => False) H _ k5 hσ (by simp) hH (by simp) hok hI).1]

/-! ## Flags do not matter when a body is run -/

theorem runSyms_flag (S : Sem V) (E : Env Bool) : ∀ (syms : List Sym) (σ : Env V),
    runSyms S (syms.map (flag E)) σ = runSyms S syms σ := by
  intro syms
  induction syms with
  | nil => intro σ; rfl
  | cons s ss ih =>
    intro σ
    simp only [List.map_cons, runSyms]
    have : (fun (σ1 : Env V) => runSyms S (ss.map (flag E)) σ1) = fun σ1 => runSyms S ss σ1 := by
      funext σ1; exact ih σ1
    rw [this]
    rfl

theorem applyAll_run (S : Sem V) (n : Nat) : ∀ (ss : List Stmt) (E : Env Bool) (ss' : List Stmt)
    (E' : Env Bool), applyAll ss E = some (ss', E') → ∀ σ, runAll S n ss' σ = runAll S n ss σ := by
  intro ss
  induction ss with
  | nil =>
    intro E ss' E' h σ
    simp only [applyAll, Option.some.injEq, Prod.mk.injEq] at h
    obtain ⟨rfl, _⟩ := h
    rfl
  | cons s ss ih =>
    intro E ss' E' h σ
    by_cases hinit : ∃ syms tail, s = .init syms tail
    · obtain ⟨syms, tail, rfl⟩ := hinit
      simp only [applyAll] at h
      cases ha : applySyms syms E with
      | none => rw [ha] at h; simp at h
      | some E1 =>
        cases hf : flagSyms E1 syms with
        | none => rw [ha] at h; simp [hf] at h
        | some syms' =>
          cases hr : applyAll ss E1 with
          | none => rw [ha] at h; simp [hf, hr] at h
          | some p =>
            obtain ⟨rest, E2'⟩ := p
            rw [ha] at h
            simp [hf, hr] at h
            obtain ⟨rfl, rfl⟩ := h
            have hs' := flagSyms_eq _ _ _ hf
            simp only [runAll]
            have h1 : run S n (.init syms' tail) σ = run S n (.init syms tail) σ := by
              simp only [run]; rw [hs', runSyms_flag]
            rw [h1]
            apply bind_congr
            intro r t _
            obtain ⟨σ1, o⟩ := r
            cases o with
            | some v => rfl
            | none => exact ih E1 rest E2' hr σ1
    · have hstep : applyAll (s :: ss) E = (applyAll ss E).bind fun p => some (s :: p.1, p.2) := by
        cases s <;> first | rfl | exact absurd ⟨_, _, rfl⟩ hinit
      rw [hstep] at h
      cases hr : applyAll ss E with
      | none => rw [hr] at h; simp at h
      | some p =>
        obtain ⟨rest, E2'⟩ := p
        rw [hr] at h
        simp only [Option.bind_some, Option.some.injEq, Prod.mk.injEq] at h
        obtain ⟨rfl, rfl⟩ := h
        simp only [runAll]
        apply bind_congr
        intro r t _
        obtain ⟨σ1, o⟩ := r
        cases o with
        | some v => rfl
        | none => exact ih E rest E2' hr σ1

mutual
theorem infer_run (S : Sem V) (n : Nat) : ∀ (s : Stmt) (E : Env Bool) (s' : Stmt) (E' : Env Bool),
    infer s E = some (s', E') → ∀ σ, run S n s' σ = run S n s σ
  | .ifThen c a, E, s', E', h, σ => by
      simp only [infer] at h
      cases ha : infer a E with
      | none => rw [ha] at h; simp at h
      | some p =>
        obtain ⟨a', E1⟩ := p
        rw [ha] at h
        simp at h
        obtain ⟨rfl, rfl⟩ := h
        simp only [run]
        rw [infer_run S n a E a' _ ha σ]
  | .ifElse c a b, E, s', E', h, σ => by
      simp only [infer] at h
      cases ha : infer a E with
      | none => rw [ha] at h; simp at h
      | some p =>
        obtain ⟨a', E1⟩ := p
        cases hb : infer b E1 with
        | none => rw [ha] at h; simp [hb] at h
        | some p =>
          obtain ⟨b', E2⟩ := p
          rw [ha] at h
          simp [hb] at h
          obtain ⟨rfl, rfl⟩ := h
          simp only [run]
          rw [infer_run S n a E a' _ ha σ, infer_run S n b E1 b' _ hb σ]
  | .loop c a, E, s', E', h, σ => by
      simp only [infer] at h
      cases ha : infer a E with
      | none => rw [ha] at h; simp at h
      | some p =>
        obtain ⟨a', E1⟩ := p
        rw [ha] at h
        simp at h
        obtain ⟨rfl, rfl⟩ := h
        simp only [run]
        have : run S n a' = run S n a := by
          funext σ; exact infer_run S n a E a' _ ha σ
        rw [this]
  | .subst x acc idx e, E, s', E', h, σ => by
      simp only [infer] at h
      cases hx : E.get x with
      | none => rw [hx] at h; simp at h
      | some b =>
        rw [hx] at h
        simp at h
        rw [← h.1]
  | .init syms tail, E, s', E', h, σ => by
      simp only [infer, Option.some.injEq, Prod.mk.injEq] at h
      rw [← h.1]
  | .block ss, E, s', E', h, σ => by
      simp only [infer] at h
      cases ha : inferAll ss E.push with
      | none => rw [ha] at h; simp at h
      | some p =>
        obtain ⟨ss1, E1⟩ := p
        cases hb : applyAll ss1 E1 with
        | none => rw [ha] at h; simp [hb] at h
        | some p =>
          obtain ⟨ss2, E2⟩ := p
          rw [ha] at h
          simp [hb] at h
          obtain ⟨rfl, rfl⟩ := h
          simp only [run]
          rw [applyAll_run S n ss1 E1 ss2 E2 hb, inferAll_run S n ss E.push ss1 E1 ha]
  | .ret e, E, s', E', h, σ => by
      simp only [infer, Option.some.injEq, Prod.mk.injEq] at h
      rw [← h.1]
  | .under e, E, s', E', h, σ => by
      simp only [infer, Option.some.injEq, Prod.mk.injEq] at h
      rw [← h.1]
  | .ceq a b, E, s', E', h, σ => by
      simp only [infer, Option.some.injEq, Prod.mk.injEq] at h
      rw [← h.1]
  | .log es, E, s', E', h, σ => by
      simp only [infer, Option.some.injEq, Prod.mk.injEq] at h
      rw [← h.1]
  | .check e, E, s', E', h, σ => by
      simp only [infer, Option.some.injEq, Prod.mk.injEq] at h
      rw [← h.1]
theorem inferAll_run (S : Sem V) (n : Nat) : ∀ (ss : List Stmt) (E : Env Bool) (ss' : List Stmt)
    (E' : Env Bool), inferAll ss E = some (ss', E') → ∀ σ, runAll S n ss' σ = runAll S n ss σ
  | [], E, ss', E', h, σ => by
      simp only [inferAll, Option.some.injEq, Prod.mk.injEq] at h
      rw [← h.1]
  | s :: ss, E, ss', E', h, σ => by
      simp only [inferAll] at h
      cases ha : infer s E with
      | none => rw [ha] at h; simp at h
      | some p =>
        obtain ⟨s', E0⟩ := p
        cases hb : inferAll ss E0 with
        | none => rw [ha] at h; simp [hb] at h
        | some p =>
          obtain ⟨rest, E1'⟩ := p
          rw [ha] at h
          simp [hb] at h
          obtain ⟨rfl, rfl⟩ := h
          simp only [runAll]
          rw [infer_run S n s E s' E0 ha σ]
          apply bind_congr
          intro r t _
          obtain ⟨σ1, o⟩ := r
          cases o with
          | some v => rfl
          | none => exact inferAll_run S n ss E0 rest _ hb σ1
end

end Verif.Expand
