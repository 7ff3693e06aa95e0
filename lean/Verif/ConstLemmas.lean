import Verif.PhaseLemmas

/-! Constant equalities, and substitutions on constraints that are not linear. -/

set_option linter.unusedSectionVars false
set_option linter.unusedSimpArgs false

namespace Verif.Simplification
open Verif.ModArith (Res Fail)
open Verif.Algebra Verif.Linear Verif.Clusters Verif.Props.Algebra

variable {p : Nat}

/-- A constraint that fixes one signal to a constant. -/
structure KC (p : Nat) (c : C) (s : Nat) (v : ZMod p) : Prop where
  nz : s ≠ 0
  occ : c.Occurs s
  only : ∀ x, c.Occurs x → x = s ∨ x = 0
  holds : ∀ ρ : Nat → ZMod p, ρ 0 = 1 → (c.Holds ρ ↔ ρ s = v)
  lin : LinClean p c

theorem occurs_lin {c : C} (h : LinClean p c) (x : Nat) : c.Occurs x ↔ x ∈ c.c.keys := by
  unfold Constraint.Occurs
  rw [h.a, h.b]; simp [CMap.keys]

theorem kc_of (hp : p.Prime) {c : C} (hcl : Clean p c) (h : c.isConstantEquality = true) : ∃ s v, KC p c s v := by
  obtain ⟨s, v, h1, h2, h3, h4⟩ := C18_constant_equality hp c hcl h
  have hab : c.a = [] ∧ c.b = [] := by
    unfold Constraint.isConstantEquality at h
    simp only [Bool.and_eq_true] at h
    exact ⟨List.isEmpty_iff.1 h.1.1, List.isEmpty_iff.1 h.1.2⟩
  have hlin : LinClean p c := ⟨hab.1, hab.2, hcl.wc, hcl.cc, hcl.zc⟩
  exact ⟨s, v, h1, (occurs_lin hlin s).2 h2, fun x hx => h3 x ((occurs_lin hlin x).1 hx), h4, hlin⟩

/-- After renaming, a constant equality is a constant equality. -/
theorem kc_renamed (hp : p.Prime) {enc : SEnc} (he : EncOK enc)
    (hren : ∀ s e, BMap.get enc s = some e → ∃ rh, rh ≠ 0 ∧ e = .signal rh) {c c' : C} {s : Nat} {v : ZMod p}
    (h : KC p c s v) (hl : LinClean p c') (hf : FastOK p enc c c') :
    ∃ s', KC p c' s' v ∧ (s' = s ∧ BMap.get enc s = none ∨ BMap.get enc s = some (.signal s')) := by
  have hpf : Fact p.Prime := ⟨hp⟩
  have hs' : ∃ s', s' ≠ 0 ∧ (s' = s ∧ BMap.get enc s = none ∨ BMap.get enc s = some (.signal s')) := by
    cases hg : BMap.get enc s with
    | none => exact ⟨s, h.nz, Or.inl ⟨rfl, rfl⟩⟩
    | some e =>
      obtain ⟨rh, h1, rfl⟩ := hren s e hg
      exact ⟨rh, h1, Or.inr rfl⟩
  obtain ⟨s', h1, h2⟩ := hs'
  have honly : ∀ x, c'.Occurs x → x = s' ∨ x = 0 := by
    intro x hx
    rcases hf.occurs x hx with h3 | ⟨h3, h4⟩ | ⟨t, e, h3, h4, h5⟩
    · exact Or.inr h3
    · rcases h.only x h3 with rfl | h6
      · rcases h2 with h2 | h2
        · exact Or.inl h2.1.symm
        · rw [h4] at h2; cases h2
      · exact Or.inr h6
    · rcases h.only t h3 with rfl | rfl
      · rcases h2 with h2 | h2
        · rw [h2.2] at h4; cases h4
        · rw [h2] at h4
          injection h4 with h4
          subst h4
          left
          simpa [exprMap, CMap.keys] using h5
      · exact absurd rfl (he.nz _ _ h4)
  have key : ∀ a : ZMod p, (c'.Holds (fun x => if x = 0 then 1 else a) ↔ a = v) := by
    intro a
    rw [hf.equiv (fun x => if x = 0 then 1 else a) (by simp), h.holds (fun x => if x = 0 then 1 else a) (by simp)]
    · simp [h.nz]
    · intro t e hg
      obtain ⟨rh, h3, rfl⟩ := hren t e hg
      simp [exprMap, ev_cons, ev_nil, h3, he.nz _ _ hg]
  have hholds : ∀ ρ : Nat → ZMod p, ρ 0 = 1 → (c'.Holds ρ ↔ ρ s' = v) := by
    intro ρ hρ
    rw [← key (ρ s')]
    apply holds_congr
    intro x hx
    rcases honly x hx with rfl | rfl
    · simp [h1]
    · simp [hρ]
  refine ⟨s', ⟨h1, ?_, honly, hholds, hl⟩, h2⟩
  by_contra hno
  have e1 := key v
  have e2 := key (v + 1)
  have e3 : c'.Holds (fun x => if x = 0 then (1 : ZMod p) else v) ↔ c'.Holds (fun x => if x = 0 then 1 else v + 1) := by
    apply holds_congr
    intro x hx
    rcases honly x hx with rfl | rfl
    · exact absurd hx hno
    · simp
  rw [e1, e2] at e3
  have := e3.1 rfl
  simp at this

theorem orderedSignals_kc {c : C} {s : Nat} {v : ZMod p} (h : KC p c s v) : (orderedSignals c).getLast? = some s := by
  have hall : ∀ x ∈ orderedSignals c, x = s := by
    intro x hx
    obtain ⟨h1, h2⟩ := (mem_orderedSignals c x).1 hx
    rcases h.only x h2 with h3 | h3
    · exact h3
    · exact absurd h3 h1
  have hmem : s ∈ orderedSignals c := (mem_orderedSignals c s).2 ⟨h.nz, h.occ⟩
  cases hl : (orderedSignals c).getLast? with
  | none =>
    rw [List.getLast?_eq_none_iff] at hl
    rw [hl] at hmem; simp at hmem
  | some x => rw [hall x (List.mem_of_getLast? hl)]

/-- What the constant phase delivers (before the map is built). -/
structure Consts (p : Nat) (forb : List Nat) (cs : List C) (subs : List S) (cons : List C) : Prop where
  equiv : ∀ ρ : Nat → ZMod p, ((∀ c ∈ cs, c.Holds ρ) ↔ (∀ s ∈ subs, s.Holds ρ) ∧ ∀ c ∈ cons, c.Holds ρ)
  froms : ∀ s ∈ subs, s.frm ≠ 0 ∧ s.frm ∉ forb ∧ ∃ c ∈ cs, c.Occurs s.frm
  rhs : ∀ s ∈ subs, ∀ x ∈ s.rhs.keys, x = 0
  good : ∀ c ∈ cons, LinClean p c
  prot : ∀ c ∈ cons, ∀ x, c.Occurs x → x = 0 ∨ (x ∈ forb ∧ ∃ d ∈ cs, d.Occurs x)

theorem constantEq_spec (hp : p.Prime) (forb : List Nat) (cs : List C) (hcs : ∀ c ∈ cs, ∃ s v, KC p c s v) :
    ∃ subs cons, constantEq forb p cs = .ok (subs, cons) ∧ Consts p forb cs subs cons := by
  induction cs with
  | nil => exact ⟨[], [], rfl, ⟨by simp, by simp, by simp, by simp, by simp⟩⟩
  | cons c cs ih =>
    obtain ⟨subs, cons, h1, h2⟩ := ih (fun c hc => hcs c (by simp [hc]))
    obtain ⟨s, v, hk⟩ := hcs c (by simp)
    have hmono : ∀ x, (∃ d ∈ cs, d.Occurs x) → ∃ d ∈ c :: cs, d.Occurs x := by
      rintro x ⟨d, hd, hx⟩; exact ⟨d, by simp [hd], hx⟩
    by_cases hf : s ∈ forb
    · refine ⟨subs, c :: cons, ?_, ⟨fun ρ => ?_, fun t ht => ?_, h2.rhs, fun d hd => ?_, fun d hd x hx => ?_⟩⟩
      · unfold constantEq
        simp only [orderedSignals_kc hk, List.contains_iff_mem, hf, if_true, h1, ok_bind]
      · simp only [List.forall_mem_cons]
        rw [h2.equiv]; tauto
      · obtain ⟨a, b, d⟩ := h2.froms t ht
        exact ⟨a, b, hmono _ d⟩
      · rcases List.mem_cons.1 hd with rfl | hd
        · exact hk.lin
        · exact h2.good d hd
      · rcases List.mem_cons.1 hd with rfl | hd
        · rcases hk.only x hx with rfl | h
          · exact Or.inr ⟨hf, d, by simp, hx⟩
          · exact Or.inl h
        · rcases h2.prot d hd x hx with h | ⟨h, h'⟩
          · exact Or.inl h
          · exact Or.inr ⟨h, hmono _ h'⟩
    · have hli : c.isLinear = true := by
        unfold Constraint.isLinear; rw [hk.lin.a, hk.lin.b]; rfl
      obtain ⟨t, t1, t2, t3, t4, _, _, _, t8⟩ := C16_clear_signal hp c hli hk.lin.wf hk.lin.canon hk.lin.nz s
        ((occurs_lin hk.lin s).1 hk.occ) hk.nz
      refine ⟨t :: subs, cons, ?_, ⟨fun ρ => ?_, fun u hu => ?_, fun u hu x hx => ?_, h2.good, fun d hd x hx => ?_⟩⟩
      · unfold constantEq
        simp only [orderedSignals_kc hk, List.contains_iff_mem, hf, if_false, h1, ok_bind, t1]
      · simp only [List.forall_mem_cons]
        rw [h2.equiv, t8]; tauto
      · rcases List.mem_cons.1 hu with rfl | hu
        · rw [t2]; exact ⟨hk.nz, hf, c, by simp, hk.occ⟩
        · obtain ⟨a, b, d⟩ := h2.froms u hu
          exact ⟨a, b, hmono _ d⟩
      · rcases List.mem_cons.1 hu with rfl | hu
        · rcases hk.only x ((occurs_lin hk.lin x).2 (t4 x hx)) with rfl | h
          · exact absurd hx t3
          · exact h
        · exact h2.rhs u hu x hx
      · rcases h2.prot d hd x hx with h | ⟨h, h'⟩
        · exact Or.inl h
        · exact Or.inr ⟨h, hmono _ h'⟩

/-- Constant right-hand sides. -/
theorem ev_const {m : CMap Nat} (h : ∀ x ∈ m.keys, x = 0) (ρ ρ' : Nat → ZMod p) (h0 : ρ 0 = ρ' 0) : ev ρ m = ev ρ' m :=
  ev_congr ρ ρ' m fun k hk => by rw [h k hk, h0]

theorem Consts.encOK {forb : List Nat} {cs : List C} {subs : List S} {cons : List C}
    (h : Consts p forb cs subs cons) : EncOK (buildEncoded subs) :=
  encOK_buildEncoded (fun s hs => (h.froms s hs).1) (fun s hs t ht hx => (h.froms s hs).1 (h.rhs t ht _ hx))

/-- When the constants are consistent, the map keeps all information. -/
theorem Consts.hold_of_enc {forb : List Nat} {cs : List C} {subs : List S} {cons : List C}
    (h : Consts p forb cs subs cons) (ρ0 : Nat → ZMod p) (h0 : ρ0 0 = 1) (hsat : ∀ c ∈ cs, c.Holds ρ0)
    (ρ : Nat → ZMod p) (hρ : ρ 0 = 1) (he : EncHolds ρ (buildEncoded subs)) : ∀ s ∈ subs, s.Holds ρ := by
  intro s hs
  have hs0 := ((h.equiv ρ0).1 hsat).1
  obtain ⟨e, hg⟩ := Option.isSome_iff_exists.1 (buildEncoded_isSome hs)
  have e1 := he _ _ hg
  obtain ⟨t, ht, h1, h2⟩ := buildEncoded_get hg
  subst h2
  rw [ev_mapIntoArith] at e1
  have a1 : ρ0 s.frm = ev ρ0 s.rhs := hs0 s hs
  have a2 : ρ0 t.frm = ev ρ0 t.rhs := hs0 t ht
  rw [h1, a1] at a2
  unfold Substitution.Holds
  rw [e1, ev_const (h.rhs t ht) ρ ρ0 (by rw [hρ, h0]), ← a2, ev_const (h.rhs s hs) ρ0 ρ (by rw [hρ, h0])]

/-! ### Substitutions on arbitrary constraints -/

theorem substituteAll_good (hp : 0 < p) {enc : SEnc} (he : EncOK enc) (ord : SetOrder) (hord : ord.Valid)
    (cs : List C) : ∀ (n : Nat), (∀ c ∈ cs, Good p c) →
    ∃ cs', substituteAll ord enc p n cs = .ok cs' ∧ List.Forall₂ (fun c c' => FastOK p enc c c') cs cs' := by
  induction cs with
  | nil => intro n _; exact ⟨[], rfl, List.Forall₂.nil⟩
  | cons c cs ih =>
    intro n hcs
    obtain ⟨c', b, f1, f2, f3⟩ := fastConstraint_spec hp he (ord n) (hord n) c (hcs c (by simp))
    obtain ⟨cs', g1, g2⟩ := ih (n + 1) (fun c hc => hcs c (by simp [hc]))
    cases b with
    | false =>
      refine ⟨c' :: cs', ?_, List.Forall₂.cons f2 g2⟩
      unfold substituteAll
      rw [f1, ok_bind]
      have : fixIf false c' (p : Int) = .ok c' := rfl
      simp only [this, ok_bind, g1]
    | true =>
      obtain ⟨c'', k1, k2, k3, k4, _⟩ := C15_fix hp c' f2.good.wa f2.good.wb f2.good.wc f2.good.ca f2.good.cb f2.good.cc
      refine ⟨c'' :: cs', ?_, List.Forall₂.cons ⟨k2.good, ?_, ?_⟩ g2⟩
      · unfold substituteAll
        rw [f1, ok_bind]
        have : fixIf true c' (p : Int) = .ok c'' := k1
        simp only [this, ok_bind, g1]
      · intro ρ hρ hE
        rw [k3 ρ hρ]; exact f2.equiv ρ hρ hE
      · intro x hx
        rcases k4 x hx with h | h
        · exact Or.inl h
        · exact f2.occurs x h

/-- Three frames and the cleaning step on one constraint. -/
theorem frames_spec (hp : 0 < p) {e1 e2 e3 : SEnc} (h1 : EncOK e1) (h2 : EncOK e2) (h3 : EncOK e3) (ord : SetOrder)
    (hord : ord.Valid) (n : Nat) (c : C) (hc : Good p c) :
    ∃ c1 c2 c3 c4, applyFrames ord p n [e1, e2, e3] c = .ok c3 ∧ c3.fix p = .ok c4 ∧ FastOK p e1 c c1 ∧ FastOK p e2 c1 c2 ∧
      FastOK p e3 c2 c3 ∧ Clean p c4 ∧ (∀ ρ : Nat → ZMod p, ρ 0 = 1 → (c4.Holds ρ ↔ c3.Holds ρ)) ∧
      (∀ x, c4.Occurs x → x = 0 ∨ c3.Occurs x) ∧
      (c4.isLinear = true ∨ (∃ s ∈ c4.a.keys, s ≠ 0) ∧ (∃ s ∈ c4.b.keys, s ≠ 0)) := by
  obtain ⟨c1, b1, f1, f2, _⟩ := fastConstraint_spec hp h1 (ord n) (hord n) c hc
  obtain ⟨c2, b2, f3, f4, _⟩ := fastConstraint_spec hp h2 (ord (n + 1)) (hord _) c1 f2.good
  obtain ⟨c3, b3, f5, f6, _⟩ := fastConstraint_spec hp h3 (ord (n + 1 + 1)) (hord _) c2 f4.good
  obtain ⟨c4, k1, k2, k3, k4, k5⟩ := C15_fix hp c3 f6.good.wa f6.good.wb f6.good.wc f6.good.ca f6.good.cb f6.good.cc
  refine ⟨c1, c2, c3, c4, ?_, k1, f2, f4, f6, k2, k3, k4, ?_⟩
  · simp only [applyFrames, f1, ok_bind, f3, f5]
  · rcases k5 with ⟨a, b⟩ | h
    · left; unfold Constraint.isLinear; rw [a, b]; rfl
    · exact Or.inr h

/-- All nonlinear constraints: every stored or linear result comes from a constraint and vice versa. -/
structure Framed (p : Nat) (e1 e2 e3 : SEnc) (cs linear stored : List C) : Prop where
  back : ∀ c' ∈ linear ++ stored, ∃ c ∈ cs, ∃ c1 c2 c3, FastOK p e1 c c1 ∧ FastOK p e2 c1 c2 ∧ FastOK p e3 c2 c3 ∧
    (∀ x, c'.Occurs x → x = 0 ∨ c3.Occurs x)
  equiv : ∀ ρ : Nat → ZMod p, ρ 0 = 1 → EncHolds ρ e1 → EncHolds ρ e2 → EncHolds ρ e3 →
    ((∀ c ∈ linear ++ stored, c.Holds ρ) ↔ ∀ c ∈ cs, c.Holds ρ)
  lin : ∀ c ∈ linear, LinClean p c
  clean : ∀ c ∈ stored, Clean p c

theorem simplifyNonLinear_spec (hp : 0 < p) {e1 e2 e3 : SEnc} (h1 : EncOK e1) (h2 : EncOK e2) (h3 : EncOK e3)
    (ord : SetOrder) (hord : ord.Valid) (cs : List C) : ∀ (n : Nat), (∀ c ∈ cs, Good p c) →
    ∃ linear stored, simplifyNonLinear ord [e1, e2, e3] p n cs = .ok (linear, stored) ∧
      Framed p e1 e2 e3 cs linear stored := by
  induction cs with
  | nil =>
    intro n _
    exact ⟨[], [], rfl, ⟨by simp, by simp, by simp, by simp⟩⟩
  | cons c cs ih =>
    intro n hcs
    obtain ⟨c1, c2, c3, c4, g1, g2, g3, g4, g5, g6, g7, g8, _⟩ := frames_spec hp h1 h2 h3 ord hord n c (hcs c (by simp))
    obtain ⟨linear, stored, i1, i2⟩ := ih (n + 3) (fun c hc => hcs c (by simp [hc]))
    have hb : ∀ c' ∈ linear ++ stored, ∃ d ∈ c :: cs, ∃ c1 c2 c3, FastOK p e1 d c1 ∧ FastOK p e2 c1 c2 ∧ FastOK p e3 c2 c3 ∧
        (∀ x, c'.Occurs x → x = 0 ∨ c3.Occurs x) := by
      intro c' hc'
      obtain ⟨d, hd, h⟩ := i2.back c' hc'
      exact ⟨d, by simp [hd], h⟩
    have heq : ∀ ρ : Nat → ZMod p, ρ 0 = 1 → EncHolds ρ e1 → EncHolds ρ e2 → EncHolds ρ e3 → (c4.Holds ρ ↔ c.Holds ρ) := by
      intro ρ hρ a1 a2 a3
      rw [g7 ρ hρ, g5.equiv ρ hρ a3, g4.equiv ρ hρ a2, g3.equiv ρ hρ a1]
    cases hl : c4.isLinear with
    | true =>
      refine ⟨c4 :: linear, stored, ?_, ⟨?_, ?_, ?_, i2.clean⟩⟩
      · unfold simplifyNonLinear
        simp only [g1, ok_bind, g2, List.length_cons, List.length_nil, i1, hl, if_true]
      · intro c' hc'
        rw [List.cons_append] at hc'
        rcases List.mem_cons.1 hc' with rfl | hc'
        · exact ⟨c, by simp, c1, c2, c3, g3, g4, g5, g8⟩
        · exact hb c' hc'
      · intro ρ hρ a1 a2 a3
        rw [List.cons_append]
        simp only [List.forall_mem_cons]
        rw [heq ρ hρ a1 a2 a3, i2.equiv ρ hρ a1 a2 a3]
      · intro d hd
        rcases List.mem_cons.1 hd with rfl | hd
        · exact Clean.linClean g6 hl
        · exact i2.lin d hd
    | false =>
      refine ⟨linear, c4 :: stored, ?_, ⟨?_, ?_, i2.lin, ?_⟩⟩
      · unfold simplifyNonLinear
        simp only [g1, ok_bind, g2, List.length_cons, List.length_nil, i1, hl, if_false, Bool.false_eq_true]
      · intro c' hc'
        rw [List.mem_append, List.mem_cons] at hc'
        rcases hc' with hc' | rfl | hc'
        · exact hb c' (by simp [hc'])
        · exact ⟨c, by simp, c1, c2, c3, g3, g4, g5, g8⟩
        · exact hb c' (by simp [hc'])
      · intro ρ hρ a1 a2 a3
        simp only [List.forall_mem_cons, List.forall_mem_append]
        rw [heq ρ hρ a1 a2 a3]
        have := i2.equiv ρ hρ a1 a2 a3
        simp only [List.forall_mem_append] at this
        rw [← this]; tauto
      · intro d hd
        rcases List.mem_cons.1 hd with rfl | hd
        · exact g6
        · exact i2.clean d hd

end Verif.Simplification
