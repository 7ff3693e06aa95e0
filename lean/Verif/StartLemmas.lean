import Verif.ConstLemmas

/-! The phases before the rounds. -/

set_option linter.unusedSectionVars false
set_option linter.unusedSimpArgs false

namespace Verif.Simplification
open Verif.ModArith (Res Fail)
open Verif.Algebra Verif.Linear Verif.Clusters Verif.Props.Algebra

variable {p : Nat}

/-- Invariant of the pipeline: the live constraints together with the eliminations made so far are the system `Orig`.
`sat` is the side condition needed for the direction back. -/
structure Inv (p : Nat) (Orig : (Nat → ZMod p) → Prop) (sat : Prop) (forb : List Nat) (bound : Nat) (live : List C)
    (subs : List S) : Prop where
  fwd : ∀ ρ : Nat → ZMod p, ρ 0 = 1 → Orig ρ → (∀ c ∈ live, c.Holds ρ) ∧ ∀ s ∈ subs, s.Holds ρ
  bwd : sat → ∀ ρ : Nat → ZMod p, ρ 0 = 1 → (∀ c ∈ live, c.Holds ρ) → (∀ s ∈ subs, s.Holds ρ) → Orig ρ
  tri : subs.Pairwise fun s t => s.frm ∉ t.rhs.keys ∧ s.frm ≠ t.frm
  self : ∀ s ∈ subs, s.frm ∉ s.rhs.keys
  froms : ∀ s ∈ subs, s.frm ≠ 0 ∧ s.frm ∉ forb ∧ s.frm < bound
  gone : ∀ s ∈ subs, ∀ c ∈ live, ¬ c.Occurs s.frm
  bounded : ∀ c ∈ live, ∀ x, c.Occurs x → x ≠ 0 → x < bound

/-- Eliminated signals can be given values. -/
theorem extend (subs : List S) (htri : subs.Pairwise fun s t => s.frm ∉ t.rhs.keys ∧ s.frm ≠ t.frm)
    (hself : ∀ s ∈ subs, s.frm ∉ s.rhs.keys) (ρ : Nat → ZMod p) :
    ∃ ρ' : Nat → ZMod p, (∀ x, (∀ s ∈ subs, x ≠ s.frm) → ρ' x = ρ x) ∧ ∀ s ∈ subs, s.Holds ρ' := by
  induction subs with
  | nil => exact ⟨ρ, fun _ _ => rfl, by simp⟩
  | cons s subs ih =>
    rw [List.pairwise_cons] at htri
    obtain ⟨ρ1, h1, h2⟩ := ih htri.2 (fun t ht => hself t (by simp [ht]))
    refine ⟨Function.update ρ1 s.frm (ev ρ1 s.rhs), fun x hx => ?_, fun t ht => ?_⟩
    · rw [Function.update_of_ne (hx s (by simp))]
      exact h1 x fun t ht => hx t (by simp [ht])
    · have hcongr : ∀ m : CMap Nat, s.frm ∉ m.keys →
          ev (Function.update ρ1 s.frm (ev ρ1 s.rhs)) m = ev ρ1 m := by
        intro m hm
        apply ev_congr
        intro k hk
        rw [Function.update_of_ne]
        rintro rfl; exact hm hk
      unfold Substitution.Holds
      rcases List.mem_cons.1 ht with rfl | ht
      · rw [Function.update_self, hcongr _ (hself t (by simp))]
      · obtain ⟨g1, g2⟩ := htri.1 t ht
        rw [hcongr _ g1, Function.update_of_ne (fun h => g2 h.symm)]
        exact h2 t ht

/-- Encoded substitutions as a list. -/
def ghost (enc : SEnc) : List S := enc.map fun e => ⟨e.1, exprMap e.2⟩

theorem mem_ghost {enc : SEnc} (hs : BMap.Sorted enc) (t : S) :
    t ∈ ghost enc ↔ ∃ e, BMap.get enc t.frm = some e ∧ t.rhs = exprMap e := by
  unfold ghost
  rw [List.mem_map]
  constructor
  · rintro ⟨⟨s, e⟩, he, rfl⟩
    exact ⟨e, BMap.get_of_mem hs he, rfl⟩
  · rintro ⟨e, he, h⟩
    refine ⟨(t.frm, e), BMap.get_mem he, ?_⟩
    cases t; simp_all

theorem ghost_holds {enc : SEnc} (hs : BMap.Sorted enc) (ρ : Nat → ZMod p) :
    (∀ t ∈ ghost enc, t.Holds ρ) ↔ EncHolds ρ enc := by
  constructor
  · intro h s e hg
    exact h ⟨s, exprMap e⟩ ((mem_ghost hs _).2 ⟨e, hg, rfl⟩)
  · intro h t ht
    obtain ⟨e, h1, h2⟩ := (mem_ghost hs t).1 ht
    unfold Substitution.Holds
    rw [h2]; exact h _ _ h1

theorem ghost_nodup {enc : SEnc} (hs : BMap.Sorted enc) : (ghost enc).Pairwise fun s t => s.frm ≠ t.frm := by
  unfold ghost
  rw [List.pairwise_map]
  have := BMap.nodup_keys hs
  unfold BMap.keys at this
  rw [List.nodup_iff_pairwise_ne, List.pairwise_map] at this
  exact this

theorem pairwise_of_solved {forb : List Nat} {cs : List C} {subs : List S} {cons : List C} (h : Solved p forb cs subs cons) :
    subs.Pairwise fun s t => s.frm ∉ t.rhs.keys ∧ s.frm ≠ t.frm := by
  have h1 := h.nodup
  rw [List.nodup_iff_pairwise_ne, List.pairwise_map] at h1
  exact h1.imp_of_mem fun {s t} hs ht hne => ⟨h.disjoint s hs t ht, hne⟩

/-- What the third phase delivers in both modes. -/
structure LinOut (p : Nat) (forb : List Nat) (pre lin : List C) (rel : List Nat) (subs : List S) (enc : SEnc) (lconst : List C) :
    Prop where
  equiv : ∀ ρ : Nat → ZMod p, ρ 0 = 1 →
    ((∀ c ∈ pre, c.Holds ρ) ∧ (∀ c ∈ lin, c.Holds ρ) ↔ (∀ s ∈ subs, s.Holds ρ) ∧ ∀ c ∈ lconst, c.Holds ρ)
  froms : ∀ s ∈ subs, s.frm ≠ 0 ∧ s.frm ∉ forb ∧ ∃ c ∈ lin, c.Occurs s.frm
  tri : subs.Pairwise fun s t => s.frm ∉ t.rhs.keys ∧ s.frm ≠ t.frm
  disjoint : ∀ s ∈ subs, ∀ t ∈ subs, s.frm ∉ t.rhs.keys
  rhs : ∀ s ∈ subs, ∀ x ∈ s.rhs.keys, x = 0 ∨ ∃ c ∈ lin, c.Occurs x
  good : ∀ c ∈ lconst, Good p c
  prot : ∀ c ∈ lconst, ∀ x, c.Occurs x → x = 0 ∨ (((∃ d ∈ pre, d.Occurs x) ∨ ∃ d ∈ lin, d.Occurs x) ∧ ∀ s ∈ subs, x ≠ s.frm)
  encOK : EncOK enc
  encSubs : ∀ s e, BMap.get enc s = some e → ∃ t ∈ subs, t.frm = s ∧ e = mapIntoArith t.rhs
  complete : ∀ s ∈ subs, s.frm ∈ rel → (BMap.get enc s.frm).isSome

/-- The third phase (constraint_simplification.rs:526-583). -/
def linPhase (sched : Sched) (fuel : List C → Nat) (smp : Input) (linear lconst : List C) (rel deleted : List Nat) :
    Res (SEnc × List C × List Nat) :=
  if !smp.flagS then do
      let (subs, cons) ← linearSimplification sched 2 fuel linear smp.forbidden smp.maxSignal smp.field smp.oldHeuristics
      let deleted := deleted ++ subs.map fun s => s.frm
      let enc := buildEncoded (subs.filter fun s => rel.contains s.frm)
      let lconst ← substituteAll (sched.sets 2) enc smp.field linear.length (lconst ++ cons)
      .ok (enc, lconst, deleted)
    else .ok ([], lconst ++ linear, deleted)

theorem linPhase_spec (hp : p.Prime) (sched : Sched) (hs : sched.Valid) (fuel : List C → Nat)
    (hfuel : ∀ cs, enough cs ≤ fuel cs) (smp : Input) (hfield : smp.field = p) (h0 : 0 ∈ smp.forbidden)
    (linear lconst : List C) (rel deleted : List Nat) (hL : ∀ c ∈ linear, LinClean p c)
    (hb : ∀ c ∈ linear, ∀ x, c.Occurs x → x ≠ 0 → x < smp.maxSignal) (hg : ∀ c ∈ lconst, Good p c)
    (hprot : ∀ c ∈ lconst, ∀ x, c.Occurs x → x = 0 ∨ x ∈ smp.forbidden) :
    ∃ subs enc lconst', linPhase sched fuel smp linear lconst rel deleted =
        .ok (enc, lconst', deleted ++ subs.map fun s => s.frm) ∧
      LinOut p smp.forbidden lconst linear rel subs enc lconst' := by
  cases hfl : smp.flagS with
  | true =>
    refine ⟨[], [], lconst ++ linear, by simp [linPhase, hfl], ⟨?_, by simp, by simp, by simp, by simp, ?_, ?_, encOK_nil, ?_, by simp⟩⟩
    · intro ρ _; simp only [List.forall_mem_append]; simp
    · intro c hc
      rcases List.mem_append.1 hc with hc | hc
      · exact hg c hc
      · exact (LinClean.clean (hL c hc)).good
    · intro c hc x hx
      refine Or.inr ⟨?_, by simp⟩
      rcases List.mem_append.1 hc with hc | hc
      · exact Or.inl ⟨c, hc, hx⟩
      · exact Or.inr ⟨c, hc, hx⟩
    · intro s e h; cases h
  | false =>
    obtain ⟨subs, cons, g1, g2, g3⟩ := linearSimplification_spec hp sched hs 2 fuel hfuel linear smp.forbidden h0 smp.maxSignal
      smp.oldHeuristics hL hb
    have hfs : ∀ s ∈ subs.filter (fun s => rel.contains s.frm), s ∈ subs := fun s hs => (List.mem_filter.1 hs).1
    have hE : EncOK (buildEncoded (subs.filter fun s => rel.contains s.frm)) :=
      encOK_buildEncoded (fun s hs => (g2.froms s (hfs s hs)).1) (fun s hs t ht => g2.disjoint s (hfs s hs) t (hfs t ht))
    obtain ⟨lconst', k1, k2⟩ := substituteAll_good hp.pos hE (sched.sets 2) (hs.sets 2) (lconst ++ cons) linear.length (by
      intro c hc
      rcases List.mem_append.1 hc with hc | hc
      · exact hg c hc
      · exact g2.good c hc)
    refine ⟨subs, _, lconst', ?_, ⟨?_, g2.froms, pairwise_of_solved g2, g2.disjoint, g2.rhs, ?_, ?_, hE, ?_, ?_⟩⟩
    · unfold linPhase
      simp only [hfl, Bool.not_false, if_true, hfield, g1, ok_bind, k1]
    · intro ρ hρ
      rw [g2.equiv ρ hρ]
      have : (∀ s ∈ subs, s.Holds ρ) → ((∀ c ∈ lconst', c.Holds ρ) ↔ ∀ c ∈ lconst ++ cons, c.Holds ρ) := by
        intro h
        refine forall₂_holds k2 fun c c' hf => hf.equiv ρ hρ ?_
        exact encHolds_buildEncoded fun s hs => h s (hfs s hs)
      constructor
      · rintro ⟨h1, h2, h3⟩
        refine ⟨h2, (this h2).2 ?_⟩
        rw [List.forall_mem_append]; exact ⟨h1, h3⟩
      · rintro ⟨h1, h2⟩
        have := (this h1).1 h2
        rw [List.forall_mem_append] at this
        exact ⟨this.1, h1, this.2⟩
    · intro c hc
      obtain ⟨d, _, hd⟩ := forall₂_exists_left k2 c hc
      exact hd.good
    · intro c hc x hx
      obtain ⟨d, hd, hf⟩ := forall₂_exists_left k2 c hc
      have hd' : ∀ y, d.Occurs y → y = 0 ∨ (y ∈ smp.forbidden ∧ ((∃ d ∈ lconst, d.Occurs y) ∨ ∃ d ∈ linear, d.Occurs y)) := by
        intro y hy
        rcases List.mem_append.1 hd with h | h
        · rcases hprot d h y hy with h' | h'
          · exact Or.inl h'
          · exact Or.inr ⟨h', Or.inl ⟨d, h, hy⟩⟩
        · rcases g2.prot d h y hy with h' | ⟨h', h''⟩
          · exact Or.inl h'
          · exact Or.inr ⟨h', Or.inr h''⟩
      rcases hf.occurs x hx with h | ⟨h, _⟩ | ⟨s, e, h, h1, _⟩
      · exact Or.inl h
      · rcases hd' x h with h | ⟨h, h'⟩
        · exact Or.inl h
        · refine Or.inr ⟨h', fun s hs hxs => ?_⟩
          rw [hxs] at h
          exact (g2.froms s hs).2.1 h
      · exfalso
        obtain ⟨t, ht, rfl, _⟩ := buildEncoded_get h1
        obtain ⟨q1, q2, _⟩ := g2.froms t (hfs t ht)
        rcases hd' _ h with h | ⟨h, _⟩
        · exact q1 h
        · exact q2 h
    · intro s e h
      obtain ⟨t, ht, h1, h2⟩ := buildEncoded_get h
      exact ⟨t, hfs t ht, h1, h2⟩
    · intro s hs hr
      exact buildEncoded_isSome (List.mem_filter.2 ⟨hs, by simpa using hr⟩)

theorem start_eq (sched : Sched) (fuel : List C → Nat) (smp : Input) : start sched fuel smp = (do
  let (subs, lconst) ← eqSimplification sched smp.equalities smp.forbidden smp.maxSignal smp.field
  let linear ← substituteAll (sched.sets 0) (buildEncoded subs) smp.field (2 * smp.equalities.length) smp.linear
  let consEqualities ← substituteAll (sched.sets 0) (buildEncoded subs) smp.field (2 * smp.equalities.length + linear.length)
    smp.consEqualities
  let (subs2, cons) ← constantEq smp.forbidden smp.field consEqualities
  let linear ← substituteAll (sched.sets 1) (buildEncoded subs2) smp.field 0 linear
  let (linearSubs, lconst, deleted) ← linPhase sched fuel smp linear (lconst ++ cons)
    (relevantSet smp.nonLinear (removeNotRelevant (buildEncoded subs) (relevantSet smp.nonLinear [] [])) (buildEncoded subs2))
    (BMap.keys (buildEncoded subs) ++ BMap.keys (buildEncoded subs2))
  let (withLinear, storage) ← simplifyNonLinear (sched.sets 3)
    [removeNotRelevant (buildEncoded subs) (relevantSet smp.nonLinear [] []), buildEncoded subs2, linearSubs] smp.field 0 smp.nonLinear
  .ok ⟨lconst, withLinear, storage, deleted⟩) := rfl

/-- The constraint classes handed to the simplifier. -/
structure InputOK (p : Nat) (smp : Input) : Prop where
  field : smp.field = p
  zero : 0 ∈ smp.forbidden
  eqs : ∀ c ∈ smp.equalities, Clean p c ∧ c.isEquality p = true
  consts : ∀ c ∈ smp.consEqualities, Clean p c ∧ c.isConstantEquality = true
  linear : ∀ c ∈ smp.linear, Clean p c ∧ c.isLinear = true
  nonLinear : ∀ c ∈ smp.nonLinear, Clean p c
  bound : ∀ c ∈ smp.equalities ++ smp.consEqualities ++ smp.linear ++ smp.nonLinear, ∀ x, c.Occurs x → x ≠ 0 → x < smp.maxSignal

/-- The original system. -/
def Input.Holds (smp : Input) (ρ : Nat → ZMod p) : Prop :=
  ∀ c ∈ smp.equalities ++ smp.consEqualities ++ smp.linear ++ smp.nonLinear, c.Holds ρ

/-- No contradiction among equalities and constants. -/
def Input.ConstsConsistent (p : Nat) (smp : Input) : Prop :=
  ∃ ρ : Nat → ZMod p, ρ 0 = 1 ∧ (∀ c ∈ smp.equalities, c.Holds ρ) ∧ ∀ c ∈ smp.consEqualities, c.Holds ρ

theorem start_spec (hp : p.Prime) (sched : Sched) (hs : sched.Valid) (fuel : List C → Nat)
    (hfuel : ∀ cs, enough cs ≤ fuel cs) (smp : Input) (hi : InputOK p smp) :
    ∃ st subs, start sched fuel smp = .ok st ∧
      Inv p (smp.Holds) (smp.ConstsConsistent p) smp.forbidden smp.maxSignal (st.lconst ++ (st.linear ++ st.storage)) subs ∧
      (∀ x, x ∈ st.deleted ↔ ∃ s ∈ subs, s.frm = x) ∧
      (∀ c ∈ st.lconst, Good p c) ∧ (∀ c ∈ st.linear, LinClean p c) ∧ (∀ c ∈ st.storage, Clean p c) := by
  obtain ⟨⟨hfield, h0, hE, hK, hL, hN, hbound⟩⟩ : Nonempty (InputOK p smp) := ⟨hi⟩
  have hbE : ∀ c ∈ smp.equalities, ∀ x, c.Occurs x → x ≠ 0 → x < smp.maxSignal := fun c hc => hbound c (by simp [hc])
  have hbK : ∀ c ∈ smp.consEqualities, ∀ x, c.Occurs x → x ≠ 0 → x < smp.maxSignal := fun c hc => hbound c (by simp [hc])
  have hbL : ∀ c ∈ smp.linear, ∀ x, c.Occurs x → x ≠ 0 → x < smp.maxSignal := fun c hc => hbound c (by simp [hc])
  have hbN : ∀ c ∈ smp.nonLinear, ∀ x, c.Occurs x → x ≠ 0 → x < smp.maxSignal := fun c hc => hbound c (by simp [hc])
  -- equalities
  have hE' : ∀ c ∈ smp.equalities, ∃ s t, EqC p c s t := fun c hc => eqC_of hp (hE c hc).1 (hE c hc).2
  obtain ⟨subs1, cons1, a1, a2, a3⟩ := eqSimplification_spec hp sched hs smp.equalities smp.forbidden smp.maxSignal hE'
    (fun c hc x hx => hbE c hc x hx (by
      obtain ⟨s, t, h⟩ := hE' c hc
      have := h.nz; have := h.lt
      rcases (h.occurs x).1 hx with rfl | rfl <;> omega))
  have k1 : EncOK (buildEncoded subs1) := encOK_buildEncoded (fun s hs => (a2.froms s hs).1) a2.disjoint
  have hren : ∀ s e, BMap.get (buildEncoded subs1) s = some e → ∃ rh, rh ≠ 0 ∧ e = .signal rh ∧ ∃ t ∈ subs1, t.frm = s ∧ t.rhs = [(rh, 1)] := by
    intro s e h
    obtain ⟨t, ht, h1, h2⟩ := buildEncoded_get h
    obtain ⟨rh, h3, h4⟩ := a3.rhs t ht
    refine ⟨rh, h3, ?_, t, ht, h1, h4⟩
    rw [h2, h4]
    simp [mapIntoArith, h3]
  have hrh : ∀ t ∈ subs1, ∀ rh, t.rhs = [(rh, 1)] → rh ≠ 0 → rh < smp.maxSignal := by
    intro t ht rh hr hz
    rcases a2.rhs t ht rh (by rw [hr]; simp [CMap.keys]) with h | ⟨c, hc, hx⟩
    · exact absurd h hz
    · exact hbE c hc rh hx hz
  -- linear and constants renamed
  obtain ⟨L1, b1, b2⟩ := substituteAll_linear hp.pos k1 (sched.sets 0) (hs.sets 0) smp.linear (2 * smp.equalities.length)
    (fun c hc => Clean.linClean (hL c hc).1 (hL c hc).2)
  obtain ⟨K1, b3, b4⟩ := substituteAll_linear hp.pos k1 (sched.sets 0) (hs.sets 0) smp.consEqualities
    (2 * smp.equalities.length + L1.length) (fun c hc => by
      obtain ⟨s, v, h⟩ := kc_of hp (hK c hc).1 (hK c hc).2
      exact h.lin)
  have occ1 : ∀ c c', FastOK p (buildEncoded subs1) c c' → (∀ x, c.Occurs x → x ≠ 0 → x < smp.maxSignal) →
      ∀ x, c'.Occurs x → x ≠ 0 → x < smp.maxSignal ∧ ∀ s ∈ subs1, x ≠ s.frm := by
    intro c c' hf hc x hx hx0
    have hg := hf.gone k1 hx0 hx
    refine ⟨?_, ?_⟩
    · rcases hf.occurs x hx with h | ⟨h, _⟩ | ⟨s, e, _, h2, h3⟩
      · exact absurd h hx0
      · exact hc x h hx0
      · obtain ⟨rh, r1, rfl, t, r2, _, r3⟩ := hren s e h2
        have hxr : x = rh := by simpa [exprMap, CMap.keys] using h3
        rw [hxr]; exact hrh t r2 rh r3 r1
    · rintro s hs rfl
      have := buildEncoded_isSome hs
      rw [hg] at this; cases this
  have hL1 : ∀ c ∈ L1, LinClean p c ∧ ∀ x, c.Occurs x → x ≠ 0 → x < smp.maxSignal ∧ ∀ s ∈ subs1, x ≠ s.frm := by
    intro c hc
    obtain ⟨d, hd, h1, h2⟩ := forall₂_exists_left b2 c hc
    exact ⟨h1, occ1 d c h2 (hbL d hd)⟩
  have hK1 : ∀ c ∈ K1, (∃ s v, KC p c s v) ∧ ∀ x, c.Occurs x → x ≠ 0 → x < smp.maxSignal ∧ ∀ s ∈ subs1, x ≠ s.frm := by
    intro c hc
    obtain ⟨d, hd, h1, h2⟩ := forall₂_exists_left b4 c hc
    obtain ⟨s, v, h3⟩ := kc_of hp (hK d hd).1 (hK d hd).2
    obtain ⟨s', h4, _⟩ := kc_renamed hp k1 (fun s e h => by
      obtain ⟨rh, r1, r2, _⟩ := hren s e h
      exact ⟨rh, r1, r2⟩) h3 h1 h2
    exact ⟨⟨s', v, h4⟩, occ1 d c h2 (hbK d hd)⟩
  -- constants
  obtain ⟨subs2, cons2, c1, c2⟩ := constantEq_spec hp smp.forbidden K1 (fun c hc => (hK1 c hc).1)
  have k2 := c2.encOK
  obtain ⟨L2, d1, d2⟩ := substituteAll_linear hp.pos k2 (sched.sets 1) (hs.sets 1) L1 0 (fun c hc => (hL1 c hc).1)
  have henc2 : ∀ s e, BMap.get (buildEncoded subs2) s = some e → ∀ x ∈ (exprMap e).keys, x = 0 := by
    intro s e h x hx
    obtain ⟨t, ht, _, rfl⟩ := buildEncoded_get h
    rcases keys_mapIntoArith _ _ hx with h | h
    · exact h
    · exact c2.rhs t ht x h
  have hL2 : ∀ c ∈ L2, LinClean p c ∧ ∀ x, c.Occurs x → x ≠ 0 → x < smp.maxSignal ∧ (∀ s ∈ subs1, x ≠ s.frm) ∧
      BMap.get (buildEncoded subs2) x = none := by
    intro c hc
    obtain ⟨d, hd, h1, h2⟩ := forall₂_exists_left d2 c hc
    refine ⟨h1, fun x hx hx0 => ?_⟩
    rcases h2.occurs x hx with h | ⟨h, h'⟩ | ⟨s, e, _, h3, h4⟩
    · exact absurd h hx0
    · obtain ⟨q1, q2⟩ := (hL1 d hd).2 x h hx0
      exact ⟨q1, q2, h'⟩
    · exact absurd (henc2 s e h3 x h4) hx0
  have hpreGood : ∀ c ∈ cons1 ++ cons2, Good p c := by
    intro c hc
    rcases List.mem_append.1 hc with hc | hc
    · exact a2.good c hc
    · exact (LinClean.clean (c2.good c hc)).good
  have hpreProt : ∀ c ∈ cons1 ++ cons2, ∀ x, c.Occurs x → x = 0 ∨ (x ∈ smp.forbidden ∧ x < smp.maxSignal) := by
    intro c hc x hx
    by_cases hx0 : x = 0
    · exact Or.inl hx0
    · right
      rcases List.mem_append.1 hc with hc | hc
      · rcases a2.prot c hc x hx with h | ⟨h, d, hd, h'⟩
        · exact absurd h hx0
        · exact ⟨h, hbE d hd x h' hx0⟩
      · rcases c2.prot c hc x hx with h | ⟨h, d, hd, h'⟩
        · exact absurd h hx0
        · exact ⟨h, ((hK1 d hd).2 x h' hx0).1⟩
  -- linear
  obtain ⟨subs3, enc3, lconst, e1, e2⟩ := linPhase_spec hp sched hs fuel hfuel smp hfield h0 L2 (cons1 ++ cons2)
    (relevantSet smp.nonLinear (removeNotRelevant (buildEncoded subs1) (relevantSet smp.nonLinear [] [])) (buildEncoded subs2))
    (BMap.keys (buildEncoded subs1) ++ BMap.keys (buildEncoded subs2)) (fun c hc => (hL2 c hc).1)
    (fun c hc x hx hx0 => ((hL2 c hc).2 x hx hx0).1) hpreGood
    (fun c hc x hx => (hpreProt c hc x hx).imp_right fun h => h.1)
  -- nonlinear
  have k1' := encOK_filter k1 (fun x => (relevantSet smp.nonLinear [] []).contains x)
  obtain ⟨wl, sto, f1, f2⟩ := simplifyNonLinear_spec hp.pos k1' k2 e2.encOK (sched.sets 3) (hs.sets 3) smp.nonLinear 0
    (fun c hc => (hN c hc).good)
  have hfr2 : ∀ x, (BMap.get (buildEncoded subs2) x).isSome → x ≠ 0 ∧ x ∉ smp.forbidden ∧ x < smp.maxSignal ∧ ∀ s ∈ subs1, x ≠ s.frm := by
    intro x hx
    obtain ⟨t, ht, rfl⟩ := buildEncoded_isSome_iff.1 hx
    obtain ⟨q1, q2, c, hc, q3⟩ := c2.froms t ht
    obtain ⟨q4, q5⟩ := (hK1 c hc).2 _ q3 q1
    exact ⟨q1, q2, q4, q5⟩
  have hfr3 : ∀ s ∈ subs3, s.frm < smp.maxSignal ∧ (∀ t ∈ subs1, s.frm ≠ t.frm) ∧ BMap.get (buildEncoded subs2) s.frm = none := by
    intro s hs
    obtain ⟨q1, q2, c, hc, q3⟩ := e2.froms s hs
    exact (hL2 c hc).2 _ q3 q1
  have hrel1 : ∀ c ∈ smp.nonLinear, ∀ x, x ≠ 0 → c.Occurs x → x ∈ relevantSet smp.nonLinear [] [] := by
    intro c hc x hx0 hx
    have hget : ∀ y, BMap.get ([] : SEnc) y = none := fun y => rfl
    unfold relevantSet
    rw [List.mem_filter]
    refine ⟨List.mem_map.2 ⟨x, List.mem_flatMap.2 ⟨c, hc, (mem_signalSet c x).2 ⟨hx0, hx⟩⟩, ?_⟩, by simp [hget]⟩
    simp [unwrappedSignal, hget]
  have hsingle : ∀ x, BMap.get (removeNotRelevant (buildEncoded subs1) (relevantSet smp.nonLinear [] [])) x =
      if (relevantSet smp.nonLinear [] []).contains x then BMap.get (buildEncoded subs1) x else none := fun x => get_filter _ _ x
  -- signals of the new nonlinear constraints
  have hNocc : ∀ c ∈ wl ++ sto, ∀ x, c.Occurs x → x ≠ 0 → x < smp.maxSignal ∧ (∀ s ∈ subs1, x ≠ s.frm) ∧
      BMap.get (buildEncoded subs2) x = none ∧ ∀ s ∈ subs3, x ≠ s.frm := by
    intro c hc x hx hx0
    obtain ⟨c0, hc0, n1, n2, n3, m1, m2, m3, m4⟩ := f2.back c hc
    -- first frame
    have s1 : ∀ y, n1.Occurs y → y ≠ 0 → y < smp.maxSignal ∧ (∀ s ∈ subs1, y ≠ s.frm) ∧
        (BMap.get (buildEncoded subs2) y = none → y ∈ relevantSet smp.nonLinear
          (removeNotRelevant (buildEncoded subs1) (relevantSet smp.nonLinear [] [])) (buildEncoded subs2)) := by
      intro y hy hy0
      rcases m1.occurs y hy with h | ⟨h, h'⟩ | ⟨s, e, h1, h2, h3⟩
      · exact absurd h hy0
      · have hr := hrel1 c0 hc0 y hy0 h
        have hn : BMap.get (removeNotRelevant (buildEncoded subs1) (relevantSet smp.nonLinear [] [])) y = none := h'
        refine ⟨hbN c0 hc0 y h hy0, ?_, fun hk => ?_⟩
        · rintro s hs rfl
          have := buildEncoded_isSome hs
          rw [hsingle, if_pos (by simpa using hr)] at hn
          rw [hn] at this; cases this
        · rw [relevantSet, List.mem_filter]
          refine ⟨List.mem_map.2 ⟨y, List.mem_flatMap.2 ⟨c0, hc0, (mem_signalSet c0 y).2 ⟨hy0, h⟩⟩, ?_⟩, by simp [hk]⟩
          simp [unwrappedSignal, hn]
      · have hg : BMap.get (removeNotRelevant (buildEncoded subs1) (relevantSet smp.nonLinear [] [])) s = some e := h2
        have hg' := hg
        rw [hsingle] at hg'
        split at hg'
        · obtain ⟨rh, r1, rfl, t, r2, r2', r3⟩ := hren s e hg'
          have hyr : y = rh := by simpa [exprMap, CMap.keys] using h3
          subst hyr
          refine ⟨hrh t r2 y r3 r1, ?_, fun hk => ?_⟩
          · rintro u hu rfl
            exact a2.disjoint u hu t r2 (by rw [r3]; simp [CMap.keys])
          · rw [relevantSet, List.mem_filter]
            refine ⟨List.mem_map.2 ⟨s, List.mem_flatMap.2 ⟨c0, hc0, (mem_signalSet c0 s).2 ⟨k1'.nz _ _ h2, h1⟩⟩, ?_⟩, by simp [hk]⟩
            simp [unwrappedSignal, hg]
        · cases hg'
    have s2 : ∀ y, n2.Occurs y → y ≠ 0 → y < smp.maxSignal ∧ (∀ s ∈ subs1, y ≠ s.frm) ∧
        BMap.get (buildEncoded subs2) y = none ∧ y ∈ relevantSet smp.nonLinear
          (removeNotRelevant (buildEncoded subs1) (relevantSet smp.nonLinear [] [])) (buildEncoded subs2) := by
      intro y hy hy0
      rcases m2.occurs y hy with h | ⟨h, h'⟩ | ⟨s, e, _, h2, h3⟩
      · exact absurd h hy0
      · obtain ⟨q1, q2, q3⟩ := s1 y h hy0
        exact ⟨q1, q2, h', q3 h'⟩
      · exact absurd (henc2 s e h2 y h3) hy0
    rcases m4 x hx with h | h
    · exact absurd h hx0
    · rcases m3.occurs x h with h | ⟨h, h'⟩ | ⟨s, e, _, h2, h3⟩
      · exact absurd h hx0
      · obtain ⟨q1, q2, q3, q4⟩ := s2 x h hx0
        refine ⟨q1, q2, q3, ?_⟩
        rintro s hs rfl
        have := e2.complete s hs q4
        rw [h'] at this; cases this
      · obtain ⟨t, ht, rfl, rfl⟩ := e2.encSubs s e h2
        rcases keys_mapIntoArith _ _ h3 with h | h
        · exact absurd h hx0
        · rcases e2.rhs t ht x h with h' | ⟨d, hd, h'⟩
          · exact absurd h' hx0
          · obtain ⟨q1, q2, q3⟩ := (hL2 d hd).2 x h' hx0
            refine ⟨q1, q2, q3, ?_⟩
            rintro u hu rfl
            exact e2.disjoint u hu t ht h
  have hCocc : ∀ c ∈ lconst, ∀ x, c.Occurs x → x ≠ 0 → x < smp.maxSignal ∧ (∀ s ∈ subs1, x ≠ s.frm) ∧
      BMap.get (buildEncoded subs2) x = none ∧ ∀ s ∈ subs3, x ≠ s.frm := by
    intro c hc x hx hx0
    rcases e2.prot c hc x hx with h | ⟨⟨d, hd, h⟩ | ⟨d, hd, h⟩, h'⟩
    · exact absurd h hx0
    · rcases hpreProt d hd x h with h | ⟨h1, h2⟩
      · exact absurd h hx0
      · refine ⟨h2, ?_, ?_, h'⟩
        · rintro s hs rfl; exact (a2.froms s hs).2.1 h1
        · by_contra hne
          exact (hfr2 x (Option.isSome_iff_ne_none.2 hne)).2.1 h1
    · obtain ⟨q1, q2, q3⟩ := (hL2 d hd).2 x h hx0
      exact ⟨q1, q2, q3, h'⟩
  have hocc : ∀ c ∈ lconst ++ (wl ++ sto), ∀ x, c.Occurs x → x ≠ 0 → x < smp.maxSignal ∧ (∀ s ∈ subs1, x ≠ s.frm) ∧
      BMap.get (buildEncoded subs2) x = none ∧ ∀ s ∈ subs3, x ≠ s.frm := by
    intro c hc
    rcases List.mem_append.1 hc with hc | hc
    · exact hCocc c hc
    · exact hNocc c hc
  have hg2 := ghost_holds (p := p) k2.sorted
  have hG2 : ∀ t ∈ ghost (buildEncoded subs2), t.frm ≠ 0 ∧ t.frm ∉ smp.forbidden ∧ t.frm < smp.maxSignal ∧ (∀ s ∈ subs1, t.frm ≠ s.frm) ∧
      (∀ x ∈ t.rhs.keys, x = 0) ∧ (BMap.get (buildEncoded subs2) t.frm).isSome := by
    intro t ht
    obtain ⟨e, h1, h2⟩ := (mem_ghost k2.sorted t).1 ht
    have hsm : (BMap.get (buildEncoded subs2) t.frm).isSome := by rw [h1]; rfl
    obtain ⟨q1, q2, q3, q4⟩ := hfr2 t.frm hsm
    exact ⟨q1, q2, q3, q4, by rw [h2]; exact henc2 _ _ h1, hsm⟩
  have hfr3rhs : ∀ t ∈ subs3, ∀ x ∈ t.rhs.keys, x ≠ 0 → (∀ s ∈ subs1, x ≠ s.frm) ∧ BMap.get (buildEncoded subs2) x = none := by
    intro t ht x hx hx0
    rcases e2.rhs t ht x hx with h | ⟨d, hd, h⟩
    · exact absurd h hx0
    · exact ((hL2 d hd).2 x h hx0).2
  refine ⟨⟨lconst, wl, sto, BMap.keys (buildEncoded subs1) ++ BMap.keys (buildEncoded subs2) ++ subs3.map fun s => s.frm⟩,
    subs1 ++ (ghost (buildEncoded subs2) ++ subs3), ?_, ⟨?_, ?_, ?_, ?_, ?_, ?_, ?_⟩, ?_, e2.good, f2.lin, f2.clean⟩
  · rw [start_eq, hfield]
    simp only [a1, b1, b3, c1, d1, ok_bind, e1]
    have f1' : simplifyNonLinear (sched.sets 3) [removeNotRelevant (buildEncoded subs1) (relevantSet smp.nonLinear [] []), buildEncoded subs2,
        enc3] p 0 smp.nonLinear = .ok (wl, sto) := f1
    rw [f1', ok_bind]
  · -- forward
    intro ρ hρ ho
    unfold Input.Holds at ho
    simp only [List.forall_mem_append] at ho
    obtain ⟨⟨⟨oE, oK⟩, oL⟩, oN⟩ := ho
    obtain ⟨h1, h2⟩ := (a2.equiv ρ hρ).1 oE
    have hk1 : EncHolds ρ (buildEncoded subs1) := encHolds_buildEncoded h1
    have hl1 : ∀ c ∈ L1, c.Holds ρ := (forall₂_holds b2 fun c c' h => h.2.equiv ρ hρ hk1).2 oL
    have hkk : ∀ c ∈ K1, c.Holds ρ := (forall₂_holds b4 fun c c' h => h.2.equiv ρ hρ hk1).2 oK
    obtain ⟨h3, h4⟩ := (c2.equiv ρ).1 hkk
    have hk2 : EncHolds ρ (buildEncoded subs2) := encHolds_buildEncoded h3
    have hl2 : ∀ c ∈ L2, c.Holds ρ := (forall₂_holds d2 fun c c' h => h.2.equiv ρ hρ hk2).2 hl1
    obtain ⟨h5, h6⟩ := (e2.equiv ρ hρ).1 ⟨List.forall_mem_append.2 ⟨h2, h4⟩, hl2⟩
    have hk3 : EncHolds ρ enc3 := by
      intro s e hg
      obtain ⟨t, ht, rfl, rfl⟩ := e2.encSubs s e hg
      rw [ev_mapIntoArith]; exact h5 t ht
    have hn := (f2.equiv ρ hρ (encHolds_filter hk1 _) hk2 hk3).2 oN
    refine ⟨List.forall_mem_append.2 ⟨h6, hn⟩, ?_⟩
    exact List.forall_mem_append.2 ⟨h1, List.forall_mem_append.2 ⟨(hg2 ρ).2 hk2, h5⟩⟩
  · -- backward
    rintro ⟨ρ0, z0, zE, zK⟩ ρ hρ hlive hsubs
    simp only [List.forall_mem_append] at hlive hsubs
    obtain ⟨l1, l2⟩ := hlive
    obtain ⟨g1, g2, g3⟩ := hsubs
    have hk1 : EncHolds ρ (buildEncoded subs1) := encHolds_buildEncoded g1
    have hk2 : EncHolds ρ (buildEncoded subs2) := (hg2 ρ).1 g2
    have hk3 : EncHolds ρ enc3 := by
      intro s e hg
      obtain ⟨t, ht, rfl, rfl⟩ := e2.encSubs s e hg
      rw [ev_mapIntoArith]; exact g3 t ht
    obtain ⟨q1, q2⟩ := (e2.equiv ρ hρ).2 ⟨g3, l1⟩
    rw [List.forall_mem_append] at q1
    have z1 : EncHolds ρ0 (buildEncoded subs1) := encHolds_buildEncoded ((a2.equiv ρ0 z0).1 zE).1
    have z2 : ∀ c ∈ K1, c.Holds ρ0 := (forall₂_holds b4 fun c c' h => h.2.equiv ρ0 z0 z1).2 zK
    have hs2 := c2.hold_of_enc ρ0 z0 z2 ρ hρ hk2
    have oK := (forall₂_holds b4 fun c c' h => h.2.equiv ρ hρ hk1).1 ((c2.equiv ρ).2 ⟨hs2, q1.2⟩)
    have oL1 := (forall₂_holds d2 fun c c' h => h.2.equiv ρ hρ hk2).1 q2
    have oL := (forall₂_holds b2 fun c c' h => h.2.equiv ρ hρ hk1).1 oL1
    have oE := (a2.equiv ρ hρ).2 ⟨g1, q1.1⟩
    have oN := (f2.equiv ρ hρ (encHolds_filter hk1 _) hk2 hk3).1 (List.forall_mem_append.2 l2)
    unfold Input.Holds
    simp only [List.forall_mem_append]
    exact ⟨⟨⟨oE, oK⟩, oL⟩, oN⟩
  · -- triangular
    rw [List.pairwise_append]
    refine ⟨pairwise_of_solved a2, ?_, ?_⟩
    · rw [List.pairwise_append]
      refine ⟨?_, e2.tri, ?_⟩
      · refine (ghost_nodup k2.sorted).imp_of_mem fun {s t} hs ht hne => ⟨fun hx => ?_, hne⟩
        exact (hG2 s hs).1 ((hG2 t ht).2.2.2.2.1 _ hx)
      · intro s hs t ht
        obtain ⟨q1, q2, q3, q4, q5, q6⟩ := hG2 s hs
        refine ⟨fun hx => ?_, fun hx => ?_⟩
        · have := (hfr3rhs t ht _ hx q1).2
          rw [this] at q6; cases q6
        · have := (hfr3 t ht).2.2
          rw [← hx] at this
          rw [this] at q6; cases q6
    · intro s hs t ht
      have hs0 := (a2.froms s hs).1
      rcases List.mem_append.1 ht with ht | ht
      · obtain ⟨q1, q2, q3, q4, q5, q6⟩ := hG2 t ht
        exact ⟨fun hx => hs0 (q5 _ hx), fun hx => q4 s hs hx.symm⟩
      · exact ⟨fun hx => (hfr3rhs t ht _ hx hs0).1 s hs rfl, fun hx => (hfr3 t ht).2.1 s hs hx.symm⟩
  · -- self
    intro s hs
    rcases List.mem_append.1 hs with hs | hs
    · exact a2.disjoint s hs s hs
    rcases List.mem_append.1 hs with hs | hs
    · intro hx; exact (hG2 s hs).1 ((hG2 s hs).2.2.2.2.1 _ hx)
    · exact e2.disjoint s hs s hs
  · intro s hs
    rcases List.mem_append.1 hs with hs | hs
    · obtain ⟨q1, q2, c, hc, q3⟩ := a2.froms s hs
      exact ⟨q1, q2, hbE c hc _ q3 q1⟩
    rcases List.mem_append.1 hs with hs | hs
    · obtain ⟨q1, q2, q3, _⟩ := hG2 s hs
      exact ⟨q1, q2, q3⟩
    · obtain ⟨q1, q2, _⟩ := e2.froms s hs
      exact ⟨q1, q2, (hfr3 s hs).1⟩
  · intro s hs c hc hx
    rcases List.mem_append.1 hs with hs | hs
    · exact (hocc c hc _ hx (a2.froms s hs).1).2.1 s hs rfl
    rcases List.mem_append.1 hs with hs | hs
    · have := (hocc c hc _ hx (hG2 s hs).1).2.2.1
      have h2 := (hG2 s hs).2.2.2.2.2
      rw [this] at h2; cases h2
    · exact (hocc c hc _ hx (e2.froms s hs).1).2.2.2 s hs rfl
  · intro c hc x hx hx0
    exact (hocc c hc x hx hx0).1
  · -- deleted
    intro x
    show x ∈ BMap.keys (buildEncoded subs1) ++ BMap.keys (buildEncoded subs2) ++ subs3.map (fun s => s.frm) ↔ _
    simp only [List.mem_append, List.mem_map]
    rw [← BMap.get_isSome_iff, ← BMap.get_isSome_iff, buildEncoded_isSome_iff]
    constructor
    · rintro ((⟨t, ht, h⟩ | h) | ⟨t, ht, h⟩)
      · exact ⟨t, Or.inl ht, h⟩
      · obtain ⟨e, he⟩ := Option.isSome_iff_exists.1 h
        exact ⟨⟨x, exprMap e⟩, Or.inr (Or.inl ((mem_ghost k2.sorted _).2 ⟨e, he, rfl⟩)), rfl⟩
      · exact ⟨t, Or.inr (Or.inr ht), h⟩
    · rintro ⟨t, ht | ht | ht, rfl⟩
      · exact Or.inl (Or.inl ⟨t, ht, rfl⟩)
      · exact Or.inl (Or.inr (hG2 t ht).2.2.2.2.2)
      · exact Or.inr ⟨t, ht, rfl⟩

end Verif.Simplification
