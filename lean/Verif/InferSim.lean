import Verif.InferLemmas

/-!
The runs of the type checker on a program without marks and on the program with the inferred templates: as long
as the first run reports nothing, the second goes through the same states, up to the templates of components that
the first has not met yet.
-/

set_option linter.unusedVariables false
set_option linter.unusedSimpArgs false

namespace Verif.Types

/-- The entries are the same, or the second names the template which the first will get. -/
def NearE (S : Sg) (e e' : Nat × Decl (Option Nat × Nat)) : Prop :=
  e' = e ∨ ∃ x t d d', e = (x, .comp (none, d)) ∧ e' = (x, .comp (some t, d)) ∧ (x, Decl.comp (some t, d')) ∈ S

/-- The states are the same up to such entries. -/
structure Near (S : Sg) (st st' : St) : Prop where
  rep : st'.rep = st.rep
  reg : st'.reg = st.reg
  reached : st'.reached = st.reached
  ret : st'.ret = st.ret
  blocks : st'.env.blocks = st.env.blocks
  flat : List.Forall₂ (NearE S) st.env.flat st'.env.flat

section Lists

variable {S : Sg}

theorem NearE.key {e e' : Nat × Decl (Option Nat × Nat)} (h : NearE S e e') : e'.1 = e.1 := by
  rcases h with rfl | ⟨x, t, d, d', rfl, rfl, _⟩ <;> rfl

theorem near_keys {fl fl' : Sg} (h : List.Forall₂ (NearE S) fl fl') : keys fl' = keys fl := by
  induction h with
  | nil => rfl
  | cons h _ ih => simp only [keys, List.map_cons, h.key] at ih ⊢; rw [ih]

theorem near_sigIn {fl fl' : Sg} (h : List.Forall₂ (NearE S) fl fl') (io : Io) (x : Nat) :
    sigIn io fl' x = sigIn io fl x := by
  induction h with
  | nil => rfl
  | cons h _ ih =>
    unfold sigIn at ih ⊢
    rcases h with rfl | ⟨x, t, d, d', rfl, rfl, _⟩
    · simp only [List.findSome?_cons, ih]
    · simp only [List.findSome?_cons, ih]

theorem near_sigGet {fl fl' : Sg} (h : List.Forall₂ (NearE S) fl fl') (x : Nat) : sigGet fl' x = sigGet fl x := by
  unfold sigGet
  simp only [near_sigIn h]

theorem near_compGet {fl fl' : Sg} (h : List.Forall₂ (NearE S) fl fl') (x : Nat) :
    compGet fl' x = compGet fl x ∨ ∃ t d d', compGet fl x = some (none, d) ∧ compGet fl' x = some (some t, d) ∧
      (x, Decl.comp (some t, d')) ∈ S := by
  induction h with
  | nil => exact .inl rfl
  | @cons e e' l l' h _ ih =>
    unfold compGet at ih ⊢
    rcases h with rfl | ⟨y, t, d, d', rfl, rfl, hm⟩
    · simp only [List.findSome?_cons]
      split
      · exact .inl rfl
      · exact ih
    · simp only [List.findSome?_cons]
      by_cases hy : y = x
      · subst hy
        simp only [if_true]
        exact .inr ⟨t, d, d', rfl, rfl, hm⟩
      · simp only [if_neg hy]
        exact ih

theorem near_set {fl fl' : Sg} (h : List.Forall₂ (NearE S) fl fl') (x u : Nat) :
    List.Forall₂ (NearE S) (compSet fl x fun e => (some u, e.2)) (compSet fl' x fun e => (some u, e.2)) := by
  induction h with
  | nil => exact .nil
  | @cons e e' l l' h _ ih =>
    refine .cons ?_ ih
    rcases h with rfl | ⟨y, t, d, d', rfl, rfl, hm⟩
    · exact .inl rfl
    · by_cases hy : y = x
      · simp only [if_pos hy]; exact .inl rfl
      · simp only [if_neg hy]; exact .inr ⟨y, t, d, d', rfl, rfl, hm⟩

theorem near_set_left {fl fl' : Sg} (h : List.Forall₂ (NearE S) fl fl') {x u d : Nat} (hn : (keys fl).Nodup)
    (hc : compGet fl x = some (none, d)) (hc' : compGet fl' x = some (some u, d)) :
    List.Forall₂ (NearE S) (compSet fl x fun e => (some u, e.2)) fl' := by
  have hm := compGet_mem hc
  have hm' := compGet_mem hc'
  have hn' : (keys fl').Nodup := by rw [near_keys h]; exact hn
  have key : ∀ l l' : Sg, List.Forall₂ (NearE S) l l' → (∀ e ∈ l, e ∈ fl) → (∀ e ∈ l', e ∈ fl') →
      List.Forall₂ (NearE S) (compSet l x fun e => (some u, e.2)) l' := by
    intro l l' hl
    induction hl with
    | nil => intro _ _; exact .nil
    | @cons e e' l l' h _ ih =>
      intro h1 h2
      refine .cons ?_ (ih (fun e he => h1 e (List.mem_cons_of_mem _ he)) fun e he => h2 e (List.mem_cons_of_mem _ he))
      have m1 := h1 e List.mem_cons_self
      have m2 := h2 e' List.mem_cons_self
      rcases h with rfl | ⟨y, t, d1, d2, rfl, rfl, hS⟩
      · obtain ⟨y, c⟩ := e'
        by_cases hy : y = x
        · subst hy
          have a1 := nodup_unique hn m1 hm
          have a2 := nodup_unique hn' m2 hm'
          rw [a1] at a2
          cases a2
        · rcases c with ⟨io, n⟩ | c
          · exact .inl rfl
          · simp only [if_neg hy]; exact .inl rfl
      · by_cases hy : y = x
        · subst hy
          have a2 := nodup_unique hn' m2 hm'
          injection a2 with a2
          rw [a2]
          injection a2 with a2 a3
          subst a3
          simp only [if_true]
          exact .inl rfl
        · simp only [if_neg hy]; exact .inr ⟨y, t, d1, d2, rfl, rfl, hS⟩
  exact key fl fl' h (fun e he => he) fun e he => he

end Lists

section States

variable {S : Sg} {st st' : St}

theorem Near.add (h : Near S st st') (r : Rep) : Near S (st.add r) (st'.add r) :=
  ⟨by simp only [St.add, h.rep], h.reg, h.reached, h.ret, h.blocks, h.flat⟩

theorem Near.need (h : Near S st st') (b : Bool) : Near S (st.need b) (st'.need b) := by
  cases b
  · exact h.add _
  · exact h

theorem Near.indices (h : Near S st st') (r : Option (List FT)) : Near S (st.indices r) (st'.indices r) := by
  cases r with
  | none => exact h
  | some ts => exact h.need _

/-- A symbol that is found in the first state. -/
theorem near_symbol (P : Prog) (h : Near S st st') {x k : Nat} {a : Option (Nat × Nat)} {y : Sym}
    (hy : symbol P st.env x k a = .ok y) :
    symbol (infer P) st'.env x k a = .ok y ∨
      (a = none ∧ y = .comp none ∧ ∃ t d d', compGet st.env.flat x = some (none, d) ∧
        compGet st'.env.flat x = some (some t, d) ∧ (x, Decl.comp (some t, d')) ∈ S ∧
        symbol (infer P) st'.env x k a = .ok (.comp (some t))) := by
  cases a with
  | none =>
    have hy0 := hy
    simp only [symbol] at hy ⊢
    rw [near_sigGet h.flat, h.blocks]
    rcases near_compGet h.flat x with hc | ⟨t, d, d', hc, hc', hm⟩
    · rw [hc]; exact .inl hy
    · rw [hc'] at *
      rw [hc] at hy
      simp only at hy ⊢
      by_cases hk : k > d
      · rw [if_pos hk] at hy; cases hy
      · rw [if_neg hk] at hy ⊢
        by_cases hb : (getB st.env.blocks x).isSome
        · rw [if_pos hb] at hy ⊢; exact .inl hy
        · rw [if_neg hb] at hy ⊢
          by_cases hs : (sigGet st.env.flat x).isSome
          · rw [if_pos hs] at hy ⊢; exact .inl hy
          · rw [if_neg hs] at hy ⊢
            by_cases hz : d - k = 0
            · rw [if_pos hz] at hy ⊢
              injection hy with hy
              exact .inr ⟨trivial, hy.symm, t, d, d', hc, rfl, hm, rfl⟩
            · rw [if_neg hz] at hy; cases hy
  | some sm =>
    obtain ⟨s, m⟩ := sm
    left
    simp only [symbol] at hy ⊢
    rw [near_sigGet h.flat, h.blocks]
    rcases near_compGet h.flat x with hc | ⟨t, d, d', hc, hc', hm⟩
    · rw [hc]
      cases hg : compGet st.env.flat x with
      | none => rw [hg] at hy; exact hy
      | some c =>
        obtain ⟨t, d⟩ := c
        rw [hg] at hy
        simp only at hy ⊢
        split at hy
        · cases hy
        · rename_i hdk
          rw [if_neg hdk]
          cases t with
          | none => cases hy
          | some t =>
            simp only [infer_get] at hy ⊢
            cases hD : get P.tpls t with
            | none => rw [hD] at hy; cases hy
            | some D =>
              rw [hD] at hy
              simp only [Option.map_some, mark_portGet] at hy ⊢
              exact hy
    · rw [hc] at hy
      simp only at hy
      split at hy <;> cases hy

end States

/-! ### Expressions -/

/-- As long as the first run reports nothing, the second ends near it with the same result. -/
def Sim {α : Type} (S : Sg) (p p' : St × α) : Prop := p.1.rep = [] → Near S p.1 p'.1 ∧ p'.2 = p.2

/-- What is required of the handlers of calls. -/
def CallSim (call call' : Nat → List Nat → St → St × Option FT) : Prop :=
  ∀ S f dims st st', Near S st st' → Sim S (call f dims st) (call' f dims st')

theorem single_sim {S : Sg} {p p' : St × Option (List FT)} (h : Sim S p p') : Sim S (single p) (single p') := by
  obtain ⟨st, r⟩ := p
  obtain ⟨st', r'⟩ := p'
  intro hr
  match r, h, hr with
  | none, h, hr =>
    obtain ⟨h1, h2⟩ := h hr
    simp only at h2
    subst h2
    exact ⟨h1, rfl⟩
  | some [], h, hr => exact absurd hr (add_ne _ _)
  | some [t], h, hr =>
    obtain ⟨h1, h2⟩ := h hr
    simp only at h2
    subst h2
    exact ⟨h1, rfl⟩
  | some (t :: u :: ts), h, hr => exact absurd hr (add_ne _ _)

theorem ty_sim {P : Prog} {call call' : Nat → List Nat → St → St × Option FT} (hcall : CallSpec P call)
    (hsim : CallSim call call') (S : Sg) (e : Exp) :
    ∀ st st', Near S st st' → Sim S (ty P call e st) (ty (infer P) call' e st') := by
  have mono : ∀ e st, (ty P call e st).1.rep = [] → st.rep = [] := fun e st => (ty_ok hcall e st).1.rep
  have mono1 : ∀ e st, (single (ty P call e st)).1.rep = [] → st.rep = [] :=
    fun e st => (single_ok (ty_ok hcall e st)).1.rep
  induction e with
  | num => intro st st' h hr; exact ⟨h, rfl⟩
  | nil => intro st st' h hr; exact ⟨h, rfl⟩
  | var x is ih =>
    intro st st' h hr
    have hi := ih st st' h
    simp only [ty] at hr ⊢
    rcases hp : ty P call is st with ⟨st1, r1⟩
    rcases hp' : ty (infer P) call' is st' with ⟨st1', r1'⟩
    rw [hp, hp'] at hi
    rw [hp] at hr
    simp only [Sim] at hi hr ⊢
    have hr2 : (st1.indices r1).rep = [] := by
      cases hs : symbol P (st1.indices r1).env x (len is) none with
      | error r => rw [hs] at hr; exact absurd hr (add_ne _ _)
      | ok y =>
        rw [hs] at hr
        rcases y with (_ | t) | n | n
        · exact absurd hr (add_ne _ _)
        · exact hr
        · exact hr
        · exact hr
    obtain ⟨n1, rfl⟩ := hi (indices_rep hr2).1
    have n2 := n1.indices r1'
    cases hs : symbol P (st1.indices r1').env x (len is) none with
    | error r => rw [hs] at hr; exact absurd hr (add_ne _ _)
    | ok y =>
      rw [hs] at hr
      rcases near_symbol P n2 hs with hs' | ⟨_, rfl, _⟩
      · rw [hs']
        rcases y with (_ | t) | n | n
        · exact absurd hr (add_ne _ _)
        · exact ⟨n2, rfl⟩
        · exact ⟨n2, rfl⟩
        · exact ⟨n2, rfl⟩
      · exact absurd hr (add_ne _ _)
  | port x is s js ih ih' =>
    intro st st' h hr
    have hi := ih st st' h
    simp only [ty] at hr ⊢
    rcases hp : ty P call is st with ⟨st1, r1⟩
    rcases hp' : ty (infer P) call' is st' with ⟨st1', r1'⟩
    rw [hp, hp'] at hi
    rw [hp] at hr
    simp only [Sim] at hi hr ⊢
    have m2 := mono js (st1.indices r1)
    rcases hq : ty P call js (st1.indices r1) with ⟨st2, r2⟩
    rw [hq] at hr m2
    simp only at hr m2
    have hr3 : (st2.indices r2).rep = [] := by
      cases hs : symbol P (st2.indices r2).env x (len is) (some (s, len js)) with
      | error r => rw [hs] at hr; exact absurd hr (add_ne _ _)
      | ok y =>
        rw [hs] at hr
        rcases y with t | n | n
        · exact absurd hr (add_ne _ _)
        · exact absurd hr (add_ne _ _)
        · exact hr
    have hr2 := (indices_rep hr3).1
    obtain ⟨n1, rfl⟩ := hi (indices_rep (m2 hr2)).1
    have hj := ih' _ _ (n1.indices r1')
    rcases hq' : ty (infer P) call' js (st1'.indices r1') with ⟨st2', r2'⟩
    rw [hq, hq'] at hj
    obtain ⟨n2, hr'⟩ := hj hr2
    simp only at n2 hr' ⊢
    subst hr'
    have n3 := n2.indices r2'
    cases hs : symbol P (st2.indices r2').env x (len is) (some (s, len js)) with
    | error r => rw [hs] at hr; exact absurd hr (add_ne _ _)
    | ok y =>
      rw [hs] at hr
      rcases near_symbol P n3 hs with hs' | ⟨h0, _⟩
      · rw [hs']
        rcases y with t | n | n
        · exact absurd hr (add_ne _ _)
        · exact absurd hr (add_ne _ _)
        · exact ⟨n3, rfl⟩
      · cases h0
  | op l r ihl ihr =>
    intro st st' h hr
    have hi := single_sim (ihl st st' h)
    simp only [ty] at hr ⊢
    rcases hp : single (ty P call l st) with ⟨st1, r1⟩
    rcases hp' : single (ty (infer P) call' l st') with ⟨st1', r1'⟩
    rw [hp, hp'] at hi
    rw [hp] at hr
    simp only [Sim] at hi hr ⊢
    have m2 := mono1 r st1
    rcases hq : single (ty P call r st1) with ⟨st2, r2⟩
    rw [hq] at hr m2
    simp only at hr m2
    have hr2 : st2.rep = [] := by
      split at hr
      · split at hr
        · exact hr
        · exact absurd hr (add_ne _ _)
      · exact hr
    obtain ⟨n1, rfl⟩ := hi (m2 hr2)
    have hj := single_sim (ihr _ _ n1)
    rcases hq' : single (ty (infer P) call' r st1') with ⟨st2', r2'⟩
    rw [hq, hq'] at hj
    obtain ⟨n2, hr'⟩ := hj hr2
    simp only at n2 hr' ⊢
    subst hr'
    split
    · split
      · exact ⟨n2, rfl⟩
      · exact ⟨n2.add _, rfl⟩
    · exact ⟨n2, rfl⟩
  | pre e ih =>
    intro st st' h hr
    have hi := single_sim (ih st st' h)
    simp only [ty] at hr ⊢
    rcases hp : single (ty P call e st) with ⟨st1, r1⟩
    rcases hp' : single (ty (infer P) call' e st') with ⟨st1', r1'⟩
    rw [hp, hp'] at hi
    rw [hp] at hr
    simp only [Sim] at hi hr ⊢
    cases r1 with
    | none =>
      obtain ⟨n1, rfl⟩ := hi hr
      exact ⟨n1, rfl⟩
    | some a =>
      simp only at hr ⊢
      have hr1 : st1.rep = [] := by
        split at hr
        · exact hr
        · exact absurd hr (add_ne _ _)
      obtain ⟨n1, rfl⟩ := hi hr1
      simp only
      split
      · exact ⟨n1, rfl⟩
      · exact ⟨n1.add _, rfl⟩
  | par e ih =>
    intro st st' h hr
    have hi := single_sim (ih st st' h)
    simp only [ty] at hr ⊢
    rcases hp : single (ty P call e st) with ⟨st1, r1⟩
    rcases hp' : single (ty (infer P) call' e st') with ⟨st1', r1'⟩
    rw [hp, hp'] at hi
    rw [hp] at hr
    simp only [Sim] at hi hr ⊢
    cases r1 with
    | none =>
      obtain ⟨n1, rfl⟩ := hi hr
      exact ⟨n1, rfl⟩
    | some a =>
      simp only at hr ⊢
      have hr1 : st1.rep = [] := by
        split at hr
        · exact hr
        · exact absurd hr (add_ne _ _)
      obtain ⟨n1, rfl⟩ := hi hr1
      simp only
      split
      · exact ⟨n1, rfl⟩
      · exact ⟨n1.add _, rfl⟩
  | cond c a b ihc iha ihb =>
    intro st st' h hr
    have hi := single_sim (ihc st st' h)
    simp only [ty] at hr ⊢
    rcases hp : single (ty P call c st) with ⟨st1, r1⟩
    rcases hp' : single (ty (infer P) call' c st') with ⟨st1', r1'⟩
    rw [hp, hp'] at hi
    rw [hp] at hr
    simp only [Sim] at hi hr ⊢
    have m2 := mono1 a st1
    rcases hq : single (ty P call a st1) with ⟨st2, r2⟩
    rw [hq] at hr m2
    simp only at hr m2
    have m3 := mono1 b st2
    rcases hw : single (ty P call b st2) with ⟨st3, r3⟩
    rw [hw] at hr m3
    simp only at hr m3
    have hr3 : st3.rep = [] := by
      cases r2 with
      | none => exact hr
      | some ta =>
        cases r1 with
        | none => exact hr
        | some tc =>
          cases r3 with
          | none => exact (need_rep hr).2
          | some tb => exact (need_rep (need_rep hr).2).2
    have hr2 := m3 hr3
    obtain ⟨n1, rfl⟩ := hi (m2 hr2)
    have hj := single_sim (iha _ _ n1)
    rcases hq' : single (ty (infer P) call' a st1') with ⟨st2', r2'⟩
    rw [hq, hq'] at hj
    obtain ⟨n2, hr'⟩ := hj hr2
    simp only at n2 hr' ⊢
    subst hr'
    have hk := single_sim (ihb _ _ n2)
    rcases hw' : single (ty (infer P) call' b st2') with ⟨st3', r3'⟩
    rw [hw, hw'] at hk
    obtain ⟨n3, hr'⟩ := hk hr3
    simp only at n3 hr' ⊢
    subst hr'
    cases r2' with
    | none => exact ⟨n3, rfl⟩
    | some ta =>
      cases r1' with
      | none => exact ⟨n3, rfl⟩
      | some tc =>
        cases r3' with
        | none => exact ⟨n3.need _, rfl⟩
        | some tb => exact ⟨(n3.need _).need _, rfl⟩
  | arr es ih =>
    intro st st' h hr
    have hi := ih st st' h
    simp only [ty] at hr ⊢
    rcases hp : ty P call es st with ⟨st1, r1⟩
    rcases hp' : ty (infer P) call' es st' with ⟨st1', r1'⟩
    rw [hp, hp'] at hi
    rw [hp] at hr
    simp only [Sim] at hi hr ⊢
    match r1, hi, hr with
    | none, hi, hr =>
      obtain ⟨n1, rfl⟩ := hi hr
      exact ⟨n1, rfl⟩
    | some [], hi, hr => exact absurd hr (add_ne _ _)
    | some (t :: ts), hi, hr =>
      obtain ⟨n1, rfl⟩ := hi (need_rep hr).2
      exact ⟨n1.need _, rfl⟩
  | uni v n ihv ihn =>
    intro st st' h hr
    have hi := single_sim (ihv st st' h)
    simp only [ty] at hr ⊢
    rcases hp : single (ty P call v st) with ⟨st1, r1⟩
    rcases hp' : single (ty (infer P) call' v st') with ⟨st1', r1'⟩
    rw [hp, hp'] at hi
    rw [hp] at hr
    simp only [Sim] at hi hr ⊢
    cases r1 with
    | none =>
      obtain ⟨n1, rfl⟩ := hi hr
      exact ⟨n1, rfl⟩
    | some tv =>
      simp only at hr ⊢
      have m2 := mono1 n (st1.need !tv.isTpl)
      rcases hq : single (ty P call n (st1.need !tv.isTpl)) with ⟨st2, r2⟩
      rw [hq] at hr m2
      simp only at hr m2
      have hr2 : st2.rep = [] := by
        cases r2 with
        | none => exact hr
        | some tn => exact (need_rep hr).2
      obtain ⟨n1, rfl⟩ := hi (need_rep (m2 hr2)).2
      have hj := single_sim (ihn _ _ (n1.need !tv.isTpl))
      simp only
      rcases hq' : single (ty (infer P) call' n (st1'.need !tv.isTpl)) with ⟨st2', r2'⟩
      rw [hq, hq'] at hj
      obtain ⟨n2, hr'⟩ := hj hr2
      simp only at n2 hr' ⊢
      subst hr'
      cases r2' with
      | none => exact ⟨n2, rfl⟩
      | some tn => exact ⟨n2.need _, rfl⟩
  | call f es ih =>
    intro st st' h hr
    have h0 : Near S { st with reached := f :: st.reached } { st' with reached := f :: st'.reached } :=
      ⟨h.rep, h.reg, by simp only [h.reached], h.ret, h.blocks, h.flat⟩
    have hi := ih _ _ h0
    simp only [ty] at hr ⊢
    rcases hp : ty P call es { st with reached := f :: st.reached } with ⟨st1, r1⟩
    rcases hp' : ty (infer P) call' es { st' with reached := f :: st'.reached } with ⟨st1', r1'⟩
    rw [hp, hp'] at hi
    rw [hp] at hr
    simp only [Sim] at hi hr ⊢
    have ht : (get (infer P).tpls f).isSome = (get P.tpls f).isSome := by rw [infer_get, Option.isSome_map]
    cases r1 with
    | none =>
      obtain ⟨n1, rfl⟩ := hi hr
      exact ⟨n1, by simp only [ht]⟩
    | some ts =>
      simp only at hr ⊢
      by_cases ha : ts.any FT.isTpl = true
      · rw [if_pos ha] at hr; exact absurd hr (add_ne _ _)
      · rw [if_neg ha] at hr ⊢
        cases hD : lookup P f with
        | none => rw [hD] at hr; exact absurd hr (add_ne _ _)
        | some D =>
          rw [hD] at hr
          simp only at hr ⊢
          by_cases hl : D.params.length ≠ ts.length
          · rw [if_pos hl] at hr; exact absurd hr (add_ne _ _)
          · rw [if_neg hl] at hr ⊢
            have hc := hcall f (ts.map FT.dim) st1 D hD (by simpa using hl)
            have hr1 := hc.1.rep hr
            obtain ⟨n1, rfl⟩ := hi hr1
            simp only [ha, Bool.false_eq_true, if_false]
            have hlook : ∃ D', lookup (infer P) f = some D' ∧ D'.params = D.params := by
              unfold lookup at hD ⊢
              rw [infer_fns, infer_get]
              cases hf : get P.fns f with
              | some D0 => rw [hf] at hD; injection hD with hD; subst hD; exact ⟨_, rfl, rfl⟩
              | none =>
                rw [hf] at hD
                simp only at hD ⊢
                rw [hD]
                exact ⟨_, rfl, rfl⟩
            obtain ⟨D', hD', hpar⟩ := hlook
            rw [hD']
            simp only [hpar]
            rw [if_neg hl]
            obtain ⟨n2, hres⟩ := hsim S f (ts.map FT.dim) st1 st1' n1 hr
            exact ⟨n2, by simp only [hres]⟩
  | cons e es ihe ihes =>
    intro st st' h hr
    have hi := single_sim (ihe st st' h)
    simp only [ty] at hr ⊢
    rcases hp : single (ty P call e st) with ⟨st1, r1⟩
    rcases hp' : single (ty (infer P) call' e st') with ⟨st1', r1'⟩
    rw [hp, hp'] at hi
    rw [hp] at hr
    simp only [Sim] at hi hr ⊢
    have m2 := mono es st1
    rcases hq : ty P call es st1 with ⟨st2, r2⟩
    rw [hq] at hr m2
    simp only at hr m2
    have hr2 : st2.rep = [] := by
      split at hr <;> exact hr
    obtain ⟨n1, rfl⟩ := hi (m2 hr2)
    have hj := ihes _ _ n1
    rcases hq' : ty (infer P) call' es st1' with ⟨st2', r2'⟩
    rw [hq, hq'] at hj
    obtain ⟨n2, hr'⟩ := hj hr2
    simp only at n2 hr' ⊢
    subst hr'
    split <;> exact ⟨n2, rfl⟩

/-! ### Statements -/

theorem assign_sim {P : Prog} {S : Sg} {st st' : St} (hS : (keys S).Nodup) (h : Near S st st') {x k : Nat}
    {a : Option (Nat × Nat)} {y : Sym} {o : AOp} {t : FT} (hy : symbol P st.env x k a = .ok y)
    (hr : (assignTo st x o t y).rep = []) (hn : (keys st.env.flat).Nodup) (he : Ext (assignTo st x o t y).env.flat S) :
    ∃ y', symbol (infer P) st'.env x k a = .ok y' ∧ Near S (assignTo st x o t y) (assignTo st' x o t y') := by
  rcases near_symbol P h hy with hs | ⟨rfl, rfl, t0, d, d', hc, hc', hm, hs⟩
  · refine ⟨y, hs, ?_⟩
    unfold assignTo
    rcases y with c | n | n
    · simp only
      split
      · exact h.add _
      · split
        · exact h.add _
        · exact ⟨h.rep, h.reg, h.reached, h.ret, h.blocks, near_set h.flat _ _⟩
        · exact h.need _
    · simp only
      split
      · exact h.add _
      · split
        · exact h.add _
        · exact h.need _
    · simp only
      split
      · exact h.add _
      · split
        · exact h.add _
        · exact h.need _
  · refine ⟨_, hs, ?_⟩
    unfold assignTo at hr he ⊢
    simp only at hr he ⊢
    split at hr
    · exact absurd hr (add_ne _ _)
    · rename_i ho
      rw [if_neg ho] at he ⊢
      rw [if_neg ho]
      rcases t with n | u
      · exact absurd hr (add_ne _ _)
      · simp only at he ⊢
        have h1 : (x, Decl.comp (some u, d)) ∈ compSet st.env.flat x (fun e => (some u, e.2)) := by
          unfold compSet
          refine List.mem_map.mpr ⟨(x, .comp (none, d)), compGet_mem hc, ?_⟩
          simp only [if_true]
        obtain ⟨t', h2, h3⟩ := he _ h1
        have h4 := h3 u rfl
        subst h4
        have h5 := nodup_unique hS h2 hm
        injection h5 with h5
        injection h5 with h5 _
        injection h5 with h5
        subst h5
        simp only [St.need, decide_true, if_true]
        exact ⟨h.rep, h.reg, h.reached, h.ret, h.blocks, near_set_left h.flat hn hc hc'⟩

/-- The marks that are allowed. -/
def inS (S : Sg) (x t : Nat) : Prop := ∃ d, (x, Decl.comp (some t, d)) ∈ S

/-- The second run of a statement stays near the first. -/
def StmtSim (P : Prog) (S : Sg) (f f' : St → St) : Prop :=
  ∀ st st', Near S st st' → (f st).rep = [] → (keys (f st).env.flat).Nodup → Ext (f st).env.flat S → Near S (f st) (f' st')

theorem inBlk_sim {P : Prog} {S : Sg} {f f' : St → St} (h : StmtSim P S f f') : StmtSim P S (inBlk f) (inBlk f') := by
  intro st st' hN hr hn he
  have h0 : Near S { st with env := { st.env with blocks := [] :: st.env.blocks } }
      { st' with env := { st'.env with blocks := [] :: st'.env.blocks } } :=
    ⟨hN.rep, hN.reg, hN.reached, hN.ret, by simp only [hN.blocks], hN.flat⟩
  have h1 := h _ _ h0 hr hn he
  exact ⟨h1.rep, h1.reg, h1.reached, h1.ret, by simp only [inBlk, h1.blocks], h1.flat⟩

theorem tyS_sim {P : Prog} {call call' : Nat → List Nat → St → St × Option FT} (hcall : CallSpec P call)
    (hsim : CallSim call call') {S : Sg} (hS : (keys S).Nodup) (s : Stmt) :
    ∀ s', Marked (inS S) s s' → StmtSim P S (tyS P call s) (tyS (infer P) call' s') := by
  have simE := ty_sim hcall hsim S
  have sim1 := fun e st st' (h : Near S st st') => single_sim (ty_sim hcall hsim S e st st' h)
  have monoI : ∀ e (st : St), (ty P call e st).1.rep = [] → st.rep = [] := fun e st => (ty_ok hcall e st).1.rep
  have mono1 : ∀ e (st : St), (single (ty P call e st)).1.rep = [] → st.rep = [] :=
    fun e st => (single_ok (ty_ok hcall e st)).1.rep
  induction s with
  | skip => intro s' hm st st' h hr hn he; cases hm; exact h
  | seq a b iha ihb =>
    rintro _ ⟨a', b', rfl, ha, hb⟩ st st' h hr hn he
    simp only [tyS] at hr hn he ⊢
    have kb := tyS_ok hcall b (tyS P call a st)
    have hn1 : (keys (tyS P call a st).env.flat).Nodup := by
      have := hn
      rw [kb.names] at this
      exact (List.nodup_append.mp this).2.1
    exact ihb b' hb _ _ (iha a' ha st st' h (kb.step.rep hr) hn1 ((kb.ext hn).trans he)) hr hn he
  | decl k x ds =>
    intro s' hm st st' h hr hn he
    have hi := simE ds st st' h
    simp only [Marked] at hm
    have key : ∀ k', s' = .decl k' x ds → (k' = k ∨ (k = .comp none ∧ ∃ t, k' = .comp (some t) ∧ inS S x t)) →
        Near S (tyS P call (.decl k x ds) st) (tyS (infer P) call' s' st') := by
      rintro k' rfl hk
      simp only [tyS] at hr hn he ⊢
      rcases hp : ty P call ds st with ⟨st1, r1⟩
      rcases hp' : ty (infer P) call' ds st' with ⟨st1', r1'⟩
      rw [hp, hp'] at hi
      rw [hp] at hr
      simp only [Sim] at hi hr ⊢
      have hr1 : (st1.indices r1).rep = [] := by cases k <;> exact hr
      obtain ⟨n1, rfl⟩ := hi (indices_rep hr1).1
      have n2 := n1.indices r1'
      rcases hk with rfl | ⟨rfl, t, rfl, d, hS'⟩
      · cases k' with
        | var => exact ⟨n2.rep, n2.reg, n2.reached, n2.ret, by simp only [n2.blocks], n2.flat⟩
        | sig io => exact ⟨n2.rep, n2.reg, n2.reached, n2.ret, n2.blocks, .cons (.inl rfl) n2.flat⟩
        | comp i => exact ⟨n2.rep, n2.reg, n2.reached, n2.ret, n2.blocks, .cons (.inl rfl) n2.flat⟩
      · exact ⟨n2.rep, n2.reg, n2.reached, n2.ret, n2.blocks, .cons (.inr ⟨x, t, _, d, rfl, rfl, hS'⟩) n2.flat⟩
    rcases hm with rfl | ⟨rfl, t, rfl, ht⟩
    · exact key k rfl (.inl rfl)
    · exact key _ rfl (.inr ⟨rfl, t, rfl, ht⟩)
  | sub x is o e =>
    intro s' hm st st' h hr hn he
    cases hm
    have hi := sim1 e st st' h
    have hnm : keys (tyS P call (.sub x is o e) st).env.flat = keys st.env.flat := by
      rw [(tyS_ok hcall (.sub x is o e) st).names]; rfl
    rw [hnm] at hn
    have o1 := single_ok (ty_ok hcall e st)
    simp only [tyS] at hr he ⊢
    rcases hp : single (ty P call e st) with ⟨st1, r1⟩
    rcases hp' : single (ty (infer P) call' e st') with ⟨st1', r1'⟩
    rw [hp, hp'] at hi
    rw [hp] at hr he o1
    simp only [Sim] at hi hr he o1 ⊢
    cases r1 with
    | none =>
      obtain ⟨n1, rfl⟩ := hi hr
      exact n1
    | some t =>
      simp only at hr he ⊢
      have o2 := ty_ok hcall is st1
      rcases hq : ty P call is st1 with ⟨st2, r2⟩
      rw [hq] at hr he o2
      simp only at hr he o2
      have hr3 : (st2.indices r2).rep = [] := by
        cases hs : symbol P (st2.indices r2).env x (len is) none with
        | error r => rw [hs] at hr; exact absurd hr (add_ne _ _)
        | ok y =>
          rw [hs] at hr
          simp only [assignTo] at hr
          rcases y with c | n | n <;> (try simp only at hr) <;> (split at hr) <;>
            first
            | exact absurd hr (add_ne _ _)
            | (split at hr <;> first | exact absurd hr (add_ne _ _) | exact (need_rep hr).2 | exact hr)
      have hr2 := (indices_rep hr3).1
      obtain ⟨n1, rfl⟩ := hi (o2.1.rep hr2)
      have hj := simE is _ _ n1
      simp only
      rcases hq' : ty (infer P) call' is st1' with ⟨st2', r2'⟩
      rw [hq, hq'] at hj
      obtain ⟨n2, hr'⟩ := hj hr2
      simp only at n2 hr' ⊢
      subst hr'
      have n3 := n2.indices r2'
      have henv : (st2.indices r2').env = st.env := (indices_env _ _).trans (o2.2.1.trans o1.2.1)
      cases hs : symbol P (st2.indices r2').env x (len is) none with
      | error r => rw [hs] at hr; exact absurd hr (add_ne _ _)
      | ok y =>
        rw [hs] at hr he
        obtain ⟨y', hy', hN⟩ := assign_sim hS n3 hs hr (by rw [henv]; exact hn) he
        rw [hy']
        exact hN
  | subp x is s js o e =>
    intro s' hm st st' h hr hn he
    cases hm
    have hi := sim1 e st st' h
    have hnm : keys (tyS P call (.subp x is s js o e) st).env.flat = keys st.env.flat := by
      rw [(tyS_ok hcall (.subp x is s js o e) st).names]; rfl
    rw [hnm] at hn
    have o1 := single_ok (ty_ok hcall e st)
    simp only [tyS] at hr he ⊢
    rcases hp : single (ty P call e st) with ⟨st1, r1⟩
    rcases hp' : single (ty (infer P) call' e st') with ⟨st1', r1'⟩
    rw [hp, hp'] at hi
    rw [hp] at hr he o1
    simp only [Sim] at hi hr he o1 ⊢
    cases r1 with
    | none =>
      obtain ⟨n1, rfl⟩ := hi hr
      exact n1
    | some t =>
      simp only at hr he ⊢
      have o2 := ty_ok hcall is st1
      rcases hq : ty P call is st1 with ⟨st2, r2⟩
      rw [hq] at hr he o2
      simp only at hr he o2
      have o3 := ty_ok hcall js (st2.indices r2)
      rcases hw : ty P call js (st2.indices r2) with ⟨st3, r3⟩
      rw [hw] at hr he o3
      simp only at hr he o3
      have hr4 : (st3.indices r3).rep = [] := by
        cases hs : symbol P (st3.indices r3).env x (len is) (some (s, len js)) with
        | error r => rw [hs] at hr; exact absurd hr (add_ne _ _)
        | ok y =>
          rw [hs] at hr
          simp only [assignTo] at hr
          rcases y with c | n | n <;> (try simp only at hr) <;> (split at hr) <;>
            first
            | exact absurd hr (add_ne _ _)
            | (split at hr <;> first | exact absurd hr (add_ne _ _) | exact (need_rep hr).2 | exact hr)
      have hr3 := (indices_rep hr4).1
      have hr2 := (indices_rep (o3.1.rep hr3)).1
      obtain ⟨n1, rfl⟩ := hi (o2.1.rep hr2)
      have hj := simE is _ _ n1
      simp only
      rcases hq' : ty (infer P) call' is st1' with ⟨st2', r2'⟩
      rw [hq, hq'] at hj
      obtain ⟨n2, hr'⟩ := hj hr2
      simp only at n2 hr' ⊢
      subst hr'
      have hk := simE js _ _ (n2.indices r2')
      rcases hw' : ty (infer P) call' js (st2'.indices r2') with ⟨st3', r3'⟩
      rw [hw, hw'] at hk
      obtain ⟨n3, hr'⟩ := hk hr3
      simp only at n3 hr' ⊢
      subst hr'
      have n4 := n3.indices r3'
      have henv : (st3.indices r3').env = st.env :=
        (indices_env _ _).trans (o3.2.1.trans ((indices_env _ _).trans (o2.2.1.trans o1.2.1)))
      cases hs : symbol P (st3.indices r3').env x (len is) (some (s, len js)) with
      | error r => rw [hs] at hr; exact absurd hr (add_ne _ _)
      | ok y =>
        rw [hs] at hr he
        obtain ⟨y', hy', hN⟩ := assign_sim hS n4 hs hr (by rw [henv]; exact hn) he
        rw [hy']
        exact hN
  | eqc l r =>
    intro s' hm st st' h hr hn he
    cases hm
    have hi := sim1 l st st' h
    simp only [tyS] at hr ⊢
    rcases hp : single (ty P call l st) with ⟨st1, r1⟩
    rcases hp' : single (ty (infer P) call' l st') with ⟨st1', r1'⟩
    rw [hp, hp'] at hi
    rw [hp] at hr
    simp only [Sim] at hi hr ⊢
    have m2 := mono1 r st1
    rcases hq : single (ty P call r st1) with ⟨st2, r2⟩
    rw [hq] at hr m2
    simp only at hr m2
    have hr2 : st2.rep = [] := by
      split at hr
      · exact (need_rep hr).2
      · exact hr
    obtain ⟨n1, rfl⟩ := hi (m2 hr2)
    have hj := sim1 r _ _ n1
    rcases hq' : single (ty (infer P) call' r st1') with ⟨st2', r2'⟩
    rw [hq, hq'] at hj
    obtain ⟨n2, hr'⟩ := hj hr2
    simp only at n2 hr' ⊢
    subst hr'
    split
    · exact n2.need _
    · exact n2
  | log e =>
    intro s' hm st st' h hr hn he
    cases hm
    have hi := sim1 e st st' h
    simp only [tyS] at hr ⊢
    rcases hp : single (ty P call e st) with ⟨st1, r1⟩
    rcases hp' : single (ty (infer P) call' e st') with ⟨st1', r1'⟩
    rw [hp, hp'] at hi
    rw [hp] at hr
    simp only [Sim] at hi hr ⊢
    have hr1 : st1.rep = [] := by
      split at hr
      · exact hr
      · exact (need_rep hr).2
    obtain ⟨n1, rfl⟩ := hi hr1
    split
    · exact n1
    · exact n1.need _
  | asrt e =>
    intro s' hm st st' h hr hn he
    cases hm
    have hi := sim1 e st st' h
    simp only [tyS] at hr ⊢
    rcases hp : single (ty P call e st) with ⟨st1, r1⟩
    rcases hp' : single (ty (infer P) call' e st') with ⟨st1', r1'⟩
    rw [hp, hp'] at hi
    rw [hp] at hr
    simp only [Sim] at hi hr ⊢
    have hr1 : st1.rep = [] := by
      split at hr
      · exact hr
      · exact (need_rep hr).2
    obtain ⟨n1, rfl⟩ := hi hr1
    split
    · exact n1
    · exact n1.need _
  | ret e =>
    intro s' hm st st' h hr hn he
    cases hm
    have hi := sim1 e st st' h
    simp only [tyS] at hr ⊢
    rcases hp : single (ty P call e st) with ⟨st1, r1⟩
    rcases hp' : single (ty (infer P) call' e st') with ⟨st1', r1'⟩
    rw [hp, hp'] at hi
    rw [hp] at hr
    simp only [Sim] at hi hr ⊢
    have hr1 : st1.rep = [] := by
      split at hr
      · exact hr
      · split at hr
        · exact absurd hr (add_ne _ _)
        · exact (need_rep hr).2
    obtain ⟨n1, rfl⟩ := hi hr1
    cases r1' with
    | none => exact n1
    | some t =>
      simp only [n1.ret]
      split
      · exact n1.add _
      · exact n1.need _
  | under e =>
    intro s' hm st st' h hr hn he
    cases hm
    have hi := sim1 e st st' h
    simp only [tyS] at hr ⊢
    rcases hp : single (ty P call e st) with ⟨st1, r1⟩
    rcases hp' : single (ty (infer P) call' e st') with ⟨st1', r1'⟩
    rw [hp, hp'] at hi
    rw [hp] at hr
    simp only [Sim] at hi hr ⊢
    have hr1 : st1.rep = [] := by
      split at hr
      · exact hr
      · exact (need_rep hr).2
    obtain ⟨n1, rfl⟩ := hi hr1
    split
    · exact n1
    · exact n1.need _
  | ite c a b iha ihb =>
    rintro _ ⟨a', b', rfl, ha, hb⟩ st st' h hr hn he
    have hi := sim1 c st st' h
    simp only [tyS] at hr hn he ⊢
    rcases hp : single (ty P call c st) with ⟨st1, r1⟩
    rcases hp' : single (ty (infer P) call' c st') with ⟨st1', r1'⟩
    rw [hp, hp'] at hi
    rw [hp] at hr hn he
    simp only [Sim] at hi hr hn he ⊢
    have ka := inBlk_ok (tyS_ok hcall a) st1
    have kb := inBlk_ok (tyS_ok hcall b) (inBlk (tyS P call a) st1)
    have hr3 : (inBlk (tyS P call b) (inBlk (tyS P call a) st1)).rep = [] := by
      split at hr
      · exact hr
      · exact (need_rep hr).2
    have henv : ∀ q : St, (match r1 with | none => q | some t => q.need t.scalar).env = q.env := by
      intro q; cases r1 with
      | none => rfl
      | some t => exact need_env _ _
    have hn3 : (keys (inBlk (tyS P call b) (inBlk (tyS P call a) st1)).env.flat).Nodup := by
      rw [← henv]; exact hn
    have he3 : Ext (inBlk (tyS P call b) (inBlk (tyS P call a) st1)).env.flat S := by
      rw [← henv]; exact he
    have hn2 : (keys (inBlk (tyS P call a) st1).env.flat).Nodup := by
      have := hn3
      rw [kb.names] at this
      exact (List.nodup_append.mp this).2.1
    obtain ⟨n1, rfl⟩ := hi (ka.step.rep (kb.step.rep hr3))
    have n2 := inBlk_sim (P := P) (iha a' ha) _ _ n1 (kb.step.rep hr3) hn2 ((kb.ext hn3).trans he3)
    have n3 := inBlk_sim (P := P) (ihb b' hb) _ _ n2 hr3 hn3 he3
    cases r1' with
    | none => exact n3
    | some t => exact n3.need _
  | loop c b ih =>
    rintro _ ⟨b', rfl, hb⟩ st st' h hr hn he
    have hi := sim1 c st st' h
    simp only [tyS] at hr hn he ⊢
    rcases hp : single (ty P call c st) with ⟨st1, r1⟩
    rcases hp' : single (ty (infer P) call' c st') with ⟨st1', r1'⟩
    rw [hp, hp'] at hi
    rw [hp] at hr hn he
    simp only [Sim] at hi hr hn he ⊢
    have kb := inBlk_ok (tyS_ok hcall b) st1
    have hr3 : (inBlk (tyS P call b) st1).rep = [] := by
      split at hr
      · exact hr
      · exact (need_rep hr).2
    have henv : ∀ q : St, (match r1 with | none => q | some t => q.need t.scalar).env = q.env := by
      intro q; cases r1 with
      | none => rfl
      | some t => exact need_env _ _
    have hn3 : (keys (inBlk (tyS P call b) st1).env.flat).Nodup := by rw [← henv]; exact hn
    have he3 : Ext (inBlk (tyS P call b) st1).env.flat S := by rw [← henv]; exact he
    obtain ⟨n1, rfl⟩ := hi (kb.step.rep hr3)
    have n3 := inBlk_sim (P := P) (ih b' hb) _ _ n1 hr3 hn3 he3
    cases r1' with
    | none => exact n3
    | some t => exact n3.need _
  | block b ih =>
    rintro _ ⟨b', rfl, hb⟩ st st' h hr hn he
    exact inBlk_sim (P := P) (ih b' hb) st st' h hr hn he

/-! ### Calls -/

theorem callF_sim {P : Prog} {given : Nat → List Nat → Guess} (hst : structured P = true)
    (honce : ∀ t ∈ P.tpls, Once t.2) (hd : ∀ t ∈ P.tpls, get P.fns t.1 = none)
    (hbare : ∀ t ∈ P.tpls, bare t.2.body = t.2.body) (fuel : Nat) :
    CallSim (callF P given fuel) (callF (infer P) given fuel) := by
  have hst0 := hst
  simp only [structured, Bool.and_eq_true, List.all_eq_true] at hst
  induction fuel with
  | zero =>
    intro S f dims st st' h hr
    exact absurd hr (add_ne _ _)
  | succ fuel ih =>
    intro S f dims st st' h hr
    have hspec := callF_ok (given := given) hst0 honce fuel
    unfold callF at hr ⊢
    rw [infer_fns, infer_get, h.reg]
    cases hfn : get P.fns f with
    | some D =>
      rw [hfn] at hr
      simp only at hr ⊢
      cases hreg : regGet st.reg (f, dims) with
      | some r => exact ⟨h, rfl⟩
      | none =>
        rw [hreg] at hr
        simp only at hr ⊢
        cases hg : given f dims with
        | panic => rw [hg] at hr; exact absurd hr (add_ne _ _)
        | unable => rw [hg] at hr; exact absurd hr (add_ne _ _)
        | dim r =>
          rw [hg] at hr
          simp only at hr ⊢
          have hb := tyS_ok hspec D.body
            { st with reg := st.reg ++ [((f, dims), r)], env := paramsEnv D dims, ret := some r }
          have hflat : (tyS P (callF P given fuel) D.body
              { st with reg := st.reg ++ [((f, dims), r)], env := paramsEnv D dims, ret := some r }).env.flat = [] := by
            have := hb.names
            rw [free_flat _ (hst.1 _ (get_mem hfn))] at this
            simpa [paramsEnv, keys] using this
          have hsim := tyS_sim hspec ih (S := []) (by simp) D.body D.body (Marked.refl _)
            { st with reg := st.reg ++ [((f, dims), r)], env := paramsEnv D dims, ret := some r }
            { st' with reg := st.reg ++ [((f, dims), r)], env := paramsEnv D dims, ret := some r }
            ⟨h.rep, rfl, h.reached, rfl, rfl, .nil⟩ hr (by rw [hflat]; simp) (by rw [hflat]; intro e he; cases he)
          exact ⟨⟨hsim.rep, hsim.reg, hsim.reached, h.ret, h.blocks, h.flat⟩, trivial⟩
    | none =>
      rw [hfn] at hr
      simp only at hr ⊢
      cases hD : get P.tpls f with
      | none => rw [hD] at hr; exact absurd hr (add_ne _ _)
      | some D =>
        rw [hD] at hr
        simp only [Option.map_some] at hr ⊢
        cases hreg : regGet st.reg (f, dims) with
        | some r => exact ⟨h, rfl⟩
        | none =>
          rw [hreg] at hr
          simp only at hr ⊢
          have hb := tyS_ok hspec D.body { st with reg := st.reg ++ [((f, dims), 0)], env := paramsEnv D dims }
          have hsim := fun S hS s' hm => tyS_sim hspec ih (S := S) hS D.body s' hm
            { st with reg := st.reg ++ [((f, dims), 0)], env := paramsEnv D dims }
            { st' with reg := st.reg ++ [((f, dims), 0)], env := paramsEnv D dims }
            ⟨h.rep, rfl, h.reached, h.ret, rfl, .nil⟩ hr
          have hp : paramsEnv (inferDef P.tpls D) dims = paramsEnv D dims := rfl
          rw [hp]
          generalize tyS P (callF P given fuel) D.body
            { st with reg := st.reg ++ [((f, dims), 0)], env := paramsEnv D dims } = q at hb hsim hr ⊢
          have hmemD := get_mem hD
          have hnr := hst.2 _ hmemD
          obtain ⟨ho1, ho2⟩ := honce _ hmemD
          simp only at ho1 ho2
          have hnames : keys q.env.flat = (flatNames D.body).reverse := by
            rw [hb.names]; simp [paramsEnv, keys]
          have hmem : ∀ x, x ∈ keys q.env.flat → x ∈ flatNames D.body := by
            intro x hx; rw [hnames] at hx; exact List.mem_reverse.mp hx
          have hnd : (keys q.env.flat).Nodup := by rw [hnames]; exact (List.reverse_perm _).nodup_iff.mpr ho1
          have hok := hb.ok hr (fun _ _ _ => True) (fun _ => True) q.env.flat (portGet D.body) none
            ⟨fun _ _ _ _ => trivial, fun _ _ => trivial⟩ hnd hnd (Ext.refl _)
            (fun x hx hk => (ho2 x (hmem x hk)).2 (getB_params hx))
            ⟨fun x hx hk => (ho2 x (hmem x hk)).1 hx, portGet_once ho1, .inl hnr⟩
          have hmarked : Marked (inS q.env.flat) D.body (inferDef P.tpls D).body := by
            refine mark_marked _ (hbare _ hmemD) _ ?_
            intro x t hm
            rcases collect_mem D.body _ hm with hm | hm
            · cases hm
            · exact ok_assigned hd hok x t hm
          have hfin := hsim q.env.flat hnd _ hmarked hnd (Ext.refl _)
          exact ⟨⟨hfin.rep, hfin.reg, hfin.reached, hfin.ret, h.blocks, h.flat⟩, trivial⟩

/-- The guess of the types of functions does not depend on the marks. -/
theorem infer_guess (P : Prog) : guess (infer P) = guess P := by
  have h : ∀ fuel, guessStart (infer P) fuel = guessStart P fuel := by
    intro fuel
    induction fuel with
    | zero => rfl
    | succ fuel ih =>
      funext f dims ex
      simp only [guessStart, infer_fns, ih]
  funext f dims
  simp only [guess, infer_fns, h]

theorem check_sim {P : Prog} {given : Nat → List Nat → Guess} (hst : structured P = true)
    (honce : ∀ t ∈ P.tpls, Once t.2) (hd : ∀ t ∈ P.tpls, get P.fns t.1 = none)
    (hbare : ∀ t ∈ P.tpls, bare t.2.body = t.2.body) {fuel : Nat} (h : (check P given fuel).rep = []) :
    (check (infer P) given fuel).rep = [] ∧ (check (infer P) given fuel).reg = (check P given fuel).reg ∧
      (check (infer P) given fuel).reached = (check P given fuel).reached := by
  have hs := ty_sim (callF_ok (given := given) hst honce fuel) (callF_sim hst honce hd hbare fuel) [] P.main
    St.init St.init ⟨rfl, rfl, rfl, rfl, rfl, .nil⟩
  unfold check at h ⊢
  have hm : (infer P).main = P.main := rfl
  rw [hm]
  rcases hp : ty P (callF P given fuel) P.main St.init with ⟨st, r⟩
  rcases hp' : ty (infer P) (callF (infer P) given fuel) P.main St.init with ⟨st', r'⟩
  rw [hp, hp'] at hs
  rw [hp] at h
  simp only [Sim] at hs
  cases r with
  | none =>
    obtain ⟨n, rfl⟩ := hs h
    exact ⟨n.rep.trans h, n.reg, n.reached⟩
  | some ts =>
    simp only at h ⊢
    cases hmain : P.main with
    | call t es =>
      rw [hmain] at h
      simp only at h ⊢
      obtain ⟨n, rfl⟩ := hs (need_rep h).2
      have ht : (get (infer P).tpls t).isSome = (get P.tpls t).isSome := by rw [infer_get, Option.isSome_map]
      simp only [ht]
      have n2 := n.need (get P.tpls t).isSome
      exact ⟨n2.rep.trans h, n2.reg, n2.reached⟩
    | _ => rw [hmain] at h; exact absurd h (add_ne _ _)

/-- The instances of an accepted program are well typed. -/
theorem check_closed {P : Prog} {given : Nat → List Nat → Guess} {fuel : Nat} (hst : structured P = true)
    (honce : ∀ t ∈ P.tpls, Once t.2) (h : (check P given fuel).rep = []) :
    Closed P (fun f ds r => ((f, ds), r) ∈ (check P given fuel).reg) (· ∈ (check P given fuel).reached) := by
  have hm := ty_ok (callF_ok (given := given) hst honce fuel) P.main St.init
  unfold check at h ⊢
  rcases hp : ty P (callF P given fuel) P.main St.init with ⟨st, r⟩
  rw [hp] at hm h
  obtain ⟨h1, h2, h3, h4⟩ := hm
  simp only at h1 h2 h3 h4 h ⊢
  have key : ∀ st' : St, st'.rep = [] → st'.reg = st.reg → st'.reached = st.reached → (st'.rep = [] → st.rep = []) →
      Closed P (fun f ds r => ((f, ds), r) ∈ st'.reg) (· ∈ st'.reached) := by
    intro st' hr hreg hreach hrep f ds r hm
    rcases h1.new (hrep hr) _ _ ⟨fun f ds r h => hreg ▸ h, fun f hf => hreach ▸ hf⟩ f ds r (hreg ▸ hm) with h | h
    · cases h
    · exact h
  cases r with
  | none => exact key st h rfl rfl id
  | some ts =>
    simp only at h ⊢
    cases hmain : P.main with
    | call t es =>
      rw [hmain] at h
      exact key _ h (need_reg _ _) (need_reached _ _) fun h => (need_rep h).2
    | _ => rw [hmain] at h; exact absurd h (add_ne _ _)

/-! ### The last template in the text -/

theorem toList_getLast? {α : Type} (o : Option α) : o.toList.getLast? = o := by cases o <;> rfl

theorem assign_get {tpls : List (Nat × Def)} {i : Path} {x y : Nat} {e : Exp} :
    get (i.assign tpls y e).env x =
      if y = x ∧ x ∈ i.comps then (tplOf tpls e).or (get i.env x) else get i.env x := by
  unfold Path.assign
  by_cases hy : y = x
  · subst hy
    by_cases hc : y ∈ i.comps
    · rw [if_pos (by simpa using hc), if_pos ⟨rfl, hc⟩]
      cases tplOf tpls e with
      | none => rfl
      | some t => simp [get]
    · rw [if_neg (by simpa using hc), if_neg fun h => hc h.2]
  · rw [if_neg (c := y = x ∧ x ∈ i.comps) fun h => hy h.1]
    split
    · split
      · simp [get, hy]
      · rfl
    · rfl

theorem assign_comps {tpls : List (Nat × Def)} {i : Path} {y : Nat} {e : Exp} : (i.assign tpls y e).comps = i.comps := by
  unfold Path.assign
  split
  · split <;> rfl
  · rfl

theorem collect_comps {tpls : List (Nat × Def)} {x : Nat} (s : Stmt) : ∀ i, x ∈ i.comps → x ∈ (collect tpls s i).comps := by
  induction s with
  | seq a b iha ihb => intro i h; exact ihb _ (iha _ h)
  | ite c a b iha ihb => intro i h; exact ihb _ (iha _ h)
  | loop c b ih => intro i h; exact ih _ h
  | block b ih => intro i h; exact ih _ h
  | decl k y ds => intro i h; cases k <;> simp [collect, h]
  | sub => intro i h; simp only [collect, assign_comps]; exact h
  | subp => intro i h; simp only [collect, assign_comps]; exact h
  | _ => intro i h; exact h

/-- `x` is a component met before, or it is in no block. -/
def Known (x : Nat) (i : Path) (sc : List (List Nat)) : Prop := x ∈ i.comps ∨ ∀ b ∈ sc, x ∉ b

theorem collect_get {P : Prog} {tpls : List (Nat × Def)} {x : Nat} (s : Stmt) :
    ∀ sc sc' i, namesS P s sc = some sc' → (∀ k ∈ kinds x s, ∃ t, k = .comp t) → Known x i sc →
      Known x (collect tpls s i) sc' ∧
      get (collect tpls s i).env x = ((assigned tpls x s).getLast?).or (get i.env x) := by
  have out : ∀ {i : Path} {sc : List (List Nat)}, Known x i sc → Known x i ([] :: sc) := by
    rintro i sc (h | h)
    · exact .inl h
    · right
      intro b hb
      rcases List.mem_cons.mp hb with rfl | hb
      · simp
      · exact h b hb
  have later : ∀ {i : Path} {sc : List (List Nat)} (s : Stmt), Known x i sc → Known x (collect tpls s i) sc := by
    rintro i sc s (h | h)
    · exact .inl (collect_comps s i h)
    · exact .inr h
  have app : ∀ (l l' : List Nat) (g : Option Nat), (l'.getLast?).or ((l.getLast?).or g) = ((l ++ l').getLast?).or g := by
    intro l l' g
    rw [List.getLast?_append]
    cases l'.getLast? <;> simp
  have asg : ∀ {i : Path} {sc : List (List Nat)} {y : Nat} {e : Exp}, sc.any (·.contains y) = true → Known x i sc →
      get (i.assign tpls y e).env x = (((if y = x then (tplOf tpls e).toList else []) : List Nat).getLast?).or (get i.env x) := by
    intro i sc y e hy hk
    rw [assign_get]
    by_cases hyx : y = x
    · subst hyx
      have hc : y ∈ i.comps := by
        rcases hk with h | h
        · exact h
        · obtain ⟨b, hb, hyb⟩ := List.any_eq_true.mp hy
          exact absurd (by simpa using hyb) (h b hb)
      rw [if_pos ⟨rfl, hc⟩, if_pos rfl, toList_getLast?]
    · rw [if_neg fun h => hyx h.1, if_neg hyx]
      rfl
  induction s with
  | seq a b iha ihb =>
    intro sc sc' i hn hk hK
    simp only [namesS] at hn
    split at hn
    · cases hn
    · rename_i sc1 h1
      obtain ⟨k1, g1⟩ := iha sc sc1 i h1 (fun k hm => hk k (by simp [kinds, hm])) hK
      obtain ⟨k2, g2⟩ := ihb sc1 sc' _ hn (fun k hm => hk k (by simp [kinds, hm])) k1
      refine ⟨k2, ?_⟩
      simp only [collect, assigned]
      rw [g2, g1, app]
  | ite c a b iha ihb =>
    intro sc sc' i hn hk hK
    simp only [namesS] at hn
    split at hn
    · rename_i hc
      injection hn with hn
      subst hn
      simp only [Bool.and_eq_true, Option.isSome_iff_exists] at hc
      obtain ⟨⟨_, sa, ha⟩, sb, hb⟩ := hc
      obtain ⟨k1, g1⟩ := iha _ _ i ha (fun k hm => hk k (by simp [kinds, hm])) (out hK)
      obtain ⟨k2, g2⟩ := ihb _ _ (collect tpls a i) hb (fun k hm => hk k (by simp [kinds, hm])) (out (later a hK))
      refine ⟨later b (later a hK), ?_⟩
      simp only [collect, assigned]
      rw [g2, g1, app]
    · cases hn
  | loop c b ih =>
    intro sc sc' i hn hk hK
    simp only [namesS] at hn
    split at hn
    · rename_i hc
      injection hn with hn
      subst hn
      simp only [Bool.and_eq_true, Option.isSome_iff_exists] at hc
      obtain ⟨_, sb, hb⟩ := hc
      exact ⟨later b hK, (ih _ _ i hb hk (out hK)).2⟩
    · cases hn
  | block b ih =>
    intro sc sc' i hn hk hK
    simp only [namesS] at hn
    split at hn
    · rename_i hc
      injection hn with hn
      subst hn
      obtain ⟨sb, hb⟩ := Option.isSome_iff_exists.mp hc
      exact ⟨later b hK, (ih _ _ i hb hk (out hK)).2⟩
    · cases hn
  | decl k y ds =>
    intro sc sc' i hn hk hK
    simp only [namesS] at hn
    split at hn
    · have hsc : y ≠ x → Known x i sc' := by
        intro hy
        rcases hK with h | h
        · exact .inl h
        · right
          unfold addName at hn
          split at hn
          · cases hn
          · split at hn
            · cases hn
            · injection hn with hn
              subst hn
              intro b hb
              rcases List.mem_cons.mp hb with rfl | hb
              · simp only [List.mem_cons, not_or]
                exact ⟨fun h => hy h.symm, h _ List.mem_cons_self⟩
              · exact h b (List.mem_cons_of_mem _ hb)
      by_cases hy : y = x
      · subst hy
        obtain ⟨t, rfl⟩ := hk k (by simp [kinds])
        exact ⟨.inl (by simp [collect]), rfl⟩
      · cases k with
        | comp t =>
          refine ⟨?_, rfl⟩
          rcases hsc hy with h | h
          · exact .inl (List.mem_cons_of_mem _ h)
          · exact .inr h
        | var => exact ⟨hsc hy, rfl⟩
        | sig io => exact ⟨hsc hy, rfl⟩
    · cases hn
  | sub y is o e =>
    intro sc sc' i hn hk hK
    refine ⟨?_, ?_⟩
    · simp only [namesS] at hn
      split at hn
      · injection hn with hn; subst hn; exact later (.sub y is o e) hK
      · cases hn
    · simp only [namesS] at hn
      split at hn
      · rename_i hc
        simp only [Bool.and_eq_true] at hc
        exact asg hc.1.2 hK
      · cases hn
  | subp y is s js o e =>
    intro sc sc' i hn hk hK
    refine ⟨?_, ?_⟩
    · simp only [namesS] at hn
      split at hn
      · injection hn with hn; subst hn; exact later (.subp y is s js o e) hK
      · cases hn
    · simp only [namesS] at hn
      split at hn
      · rename_i hc
        simp only [Bool.and_eq_true] at hc
        exact asg hc.1.1.2 hK
      · cases hn
  | skip => intro sc sc' i hn hk hK; cases hn; exact ⟨hK, rfl⟩
  | _ =>
    intro sc sc' i hn hk hK
    simp only [namesS] at hn
    split at hn
    · injection hn with hn; subst hn; exact ⟨hK, rfl⟩
    · cases hn

theorem mark_kinds_none {x : Nat} (s : Stmt) : ∀ env, kinds x s = [] →
    kinds x (mark s env).1 = [] ∧ get (mark s env).2 x = get env x := by
  have filt : ∀ (env : List (Nat × Nat)) (y : Nat), y ≠ x → get (env.filter fun e => e.1 != y) x = get env x := by
    intro env y hy
    induction env with
    | nil => rfl
    | cons e l ih =>
      obtain ⟨z, a⟩ := e
      by_cases hz : z = y
      · subst hz
        simp [get, hy, ih]
      · simp only [List.filter_cons, bne_iff_ne, ne_eq, hz, not_false_eq_true, if_true, get, ih]
  induction s with
  | seq a b iha ihb =>
    intro env h
    simp only [kinds, List.append_eq_nil_iff] at h
    obtain ⟨a1, a2⟩ := iha env h.1
    obtain ⟨b1, b2⟩ := ihb (mark a env).2 h.2
    exact ⟨by simp only [mark, kinds, a1, b1, List.append_nil], by simp only [mark]; rw [b2, a2]⟩
  | ite c a b iha ihb =>
    intro env h
    simp only [kinds, List.append_eq_nil_iff] at h
    obtain ⟨a1, a2⟩ := iha env h.1
    obtain ⟨b1, b2⟩ := ihb (mark a env).2 h.2
    exact ⟨by simp only [mark, kinds, a1, b1, List.append_nil], by simp only [mark]; rw [b2, a2]⟩
  | loop c b ih => intro env h; exact ih env h
  | block b ih => intro env h; exact ih env h
  | decl k y ds =>
    intro env h
    have hy : y ≠ x := by
      intro hy
      simp [kinds, hy] at h
    cases k with
    | comp t => exact ⟨by simp [mark, kinds, hy], filt env y hy⟩
    | var => exact ⟨h, rfl⟩
    | sig io => exact ⟨h, rfl⟩
  | _ => intro env h; exact ⟨rfl, rfl⟩

theorem mark_kinds_one {x : Nat} {t : Option Nat} (s : Stmt) : ∀ env, kinds x s = [.comp t] →
    kinds x (mark s env).1 = [.comp (get env x)] := by
  have split2 : ∀ {l l' : List Kind}, l ++ l' = [.comp t] → (l = [.comp t] ∧ l' = []) ∨ (l = [] ∧ l' = [.comp t]) := by
    intro l l' h
    rcases List.append_eq_singleton_iff.mp h with h | h
    · exact .inr h
    · exact .inl h
  induction s with
  | seq a b iha ihb =>
    intro env h
    simp only [kinds] at h
    simp only [mark, kinds]
    rcases split2 h with ⟨h1, h2⟩ | ⟨h1, h2⟩
    · rw [iha env h1, (mark_kinds_none b _ h2).1]; rfl
    · obtain ⟨a1, a2⟩ := mark_kinds_none a env h1
      rw [a1, ihb _ h2, a2]; rfl
  | ite c a b iha ihb =>
    intro env h
    simp only [kinds] at h
    simp only [mark, kinds]
    rcases split2 h with ⟨h1, h2⟩ | ⟨h1, h2⟩
    · rw [iha env h1, (mark_kinds_none b _ h2).1]; rfl
    · obtain ⟨a1, a2⟩ := mark_kinds_none a env h1
      rw [a1, ihb _ h2, a2]; rfl
  | loop c b ih => intro env h; exact ih env h
  | block b ih => intro env h; exact ih env h
  | decl k y ds =>
    intro env h
    simp only [kinds] at h
    split at h
    · rename_i hy
      subst hy
      injection h with h _
      subst h
      simp [mark, kinds]
    · cases h
  | _ => intro env h; cases h

end Verif.Types
