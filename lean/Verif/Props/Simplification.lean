import Verif.ConcludeLemmas

/-! # Properties C24 - C30: the R1CS simplifier -/

set_option linter.unusedSectionVars false
set_option linter.unusedSimpArgs false

namespace Verif.Props.Simplification
open Verif.ModArith (Res Fail)
open Verif.Algebra Verif.Linear Verif.Clusters Verif.Simplification
open Verif.Props.Algebra (Clean ok_bind)

variable {p : Nat}

/-! ## Specification -/

/-- Spec: the signals written in a constraint (wire 0 is the constant one). -/
def wires (c : C) : List Nat := (c.a ++ c.b ++ c.c).map Prod.fst

/-- Spec: each linear combination lists distinct signals with coefficients in `1..p-1`. -/
def Tidy (p : Nat) (c : C) : Prop :=
  ∀ m ∈ [c.a, c.b, c.c], (m.map Prod.fst).Nodup ∧ ∀ e ∈ m, 0 < e.2 ∧ e.2 < p

instance (p : Nat) (c : C) : Decidable (Tidy p c) := by unfold Tidy; infer_instance

theorem Tidy.clean {c : C} (h : Tidy p c) : Clean p c := by
  have ha := h c.a (by simp)
  have hb := h c.b (by simp)
  have hc := h c.c (by simp)
  exact ⟨ha.1, hb.1, hc.1, fun e he => ⟨(ha.2 e he).1.le, (ha.2 e he).2⟩, fun e he => ⟨(hb.2 e he).1.le, (hb.2 e he).2⟩,
    fun e he => ⟨(hc.2 e he).1.le, (hc.2 e he).2⟩, fun e he => (ha.2 e he).1.ne', fun e he => (hb.2 e he).1.ne',
    fun e he => (hc.2 e he).1.ne'⟩

theorem tidy_of_clean {c : C} (h : Clean p c) : Tidy p c := by
  intro m hm
  simp only [List.mem_cons, List.not_mem_nil, or_false] at hm
  have key : ∀ m : CMap Nat, m.WF → CanonMap p m → NoZero m → (m.map Prod.fst).Nodup ∧ ∀ e ∈ m, 0 < e.2 ∧ e.2 < p := by
    intro m h1 h2 h3
    refine ⟨h1, fun e he => ?_⟩
    have := h2 e he
    have := h3 e he
    omega
  rcases hm with rfl | rfl | rfl
  · exact key _ h.wa h.ca h.za
  · exact key _ h.wb h.cb h.zb
  · exact key _ h.wc h.cc h.zc

theorem mem_wires (c : C) (x : Nat) : x ∈ wires c ↔ c.Occurs x := by
  unfold wires Constraint.Occurs CMap.keys
  simp only [List.map_append, List.mem_append, or_assoc]

/-- All constraints given to the simplifier. -/
def original (smp : Input) : List C := smp.equalities ++ smp.consEqualities ++ smp.linear ++ smp.nonLinear

/-- Spec: what the constraint collector hands to the simplifier: tidy constraints in the class the collector puts them in, signals
in range, the constant and the public signals protected. -/
structure Valid (p : Nat) (smp : Input) : Prop where
  field : smp.field = p
  tidy : ∀ c ∈ original smp, Tidy p c
  eqs : ∀ c ∈ smp.equalities, c.isEquality p = true
  consts : ∀ c ∈ smp.consEqualities, c.isConstantEquality = true
  linear : ∀ c ∈ smp.linear, c.a = [] ∧ c.b = []
  range : ∀ c ∈ original smp, ∀ x ∈ wires c, x < smp.maxSignal
  pub : ∀ x, x < smp.noPublicOutputs + smp.noPublicInputs + 1 → x ∈ smp.forbidden
  inputs : smp.noPublicOutputs + smp.noPublicInputs + smp.noPrivateInputs < smp.maxSignal

theorem Valid.inputOK {smp : Input} (h : Valid p smp) : InputOK p smp := by
  have ht : ∀ c ∈ original smp, Clean p c := fun c hc => (h.tidy c hc).clean
  unfold original at ht
  refine ⟨h.field, h.pub 0 (by omega), fun c hc => ⟨ht c (by simp [hc]), h.eqs c hc⟩,
    fun c hc => ⟨ht c (by simp [hc]), h.consts c hc⟩, fun c hc => ⟨ht c (by simp [hc]), ?_⟩, fun c hc => ht c (by simp [hc]), ?_⟩
  · exact (isLinear_iff c).2 (h.linear c hc)
  · intro c hc x hx _
    exact h.range c hc x ((mem_wires c x).2 hx)

theorem Valid.prot {smp : Input} (h : Valid p smp) : smp.PublicProtected := fun x hx => h.pub x (by omega)

/-- Spec: an assignment of the wires satisfies a list of constraints. -/
def Sat (cs : List C) (ρ : Nat → ZMod p) : Prop := ρ 0 = 1 ∧ ∀ c ∈ cs, c.Holds ρ

/-- Loop bounds at least as large as the proved bounds. -/
def EnoughFuel (fuel : List C → Nat) : Prop := ∀ cs, enough cs ≤ fuel cs

/-- Schedule used in the examples. -/
def plain : Sched := ⟨fun _ _ l => l, fun _ _ _ l => l.keys, fun _ n => List.range n, fun _ _ n => List.range n⟩

theorem plain_valid : plain.Valid :=
  ⟨fun _ _ l => List.Perm.refl l, fun _ _ _ l => List.Perm.refl l.keys, fun _ n => List.Perm.refl _, fun _ _ n => List.Perm.refl _⟩

/-- Another schedule: everything reversed. -/
def reversed : Sched := ⟨fun _ _ l => l.reverse, fun _ _ _ l => l.keys.reverse, fun _ n => (List.range n).reverse,
  fun _ _ n => (List.range n).reverse⟩

theorem reversed_valid : reversed.Valid :=
  ⟨fun _ _ l => List.reverse_perm l, fun _ _ _ l => List.reverse_perm l.keys, fun _ n => List.reverse_perm _,
    fun _ _ n => List.reverse_perm _⟩

/-- Sample: field 13, output 1, public input 2, private inputs 3 and 4 (4 unused), inner signals 5..10.
Equalities 5=6, 6=2, 7=8; constant 9=4; linear 10 = 7+9; products 5*8 = 10, 3*3 = 1. -/
def sample : Input where
  field := 13
  nonLinear := [⟨[(5, 1)], [(8, 1)], [(10, 1)]⟩, ⟨[(3, 1)], [(3, 1)], [(1, 1)]⟩]
  noPublicInputs := 1
  noPublicOutputs := 1
  noPrivateInputs := 2
  forbidden := [0, 1, 2]
  consEqualities := [⟨[], [], [(9, 1), (0, 9)]⟩]
  equalities := [⟨[], [], [(5, 1), (6, 12)]⟩, ⟨[], [], [(6, 1), (2, 12)]⟩, ⟨[], [], [(7, 1), (8, 12)]⟩]
  linear := [⟨[], [], [(10, 12), (7, 1), (9, 1)]⟩]
  maxSignal := 11
  noRounds := 5
  flagS := false
  oldHeuristics := false

theorem sample_valid : Valid 13 sample :=
  ⟨rfl, by decide, by decide, by decide, by decide, by decide, by decide, by decide⟩

/-! ## C24 -/

/-- Spec: two signals are forced equal by a chain of the given equality constraints. -/
def Linked (eqs : List C) : Nat → Nat → Prop :=
  Relation.ReflTransGen fun x y => ∃ c ∈ eqs, x ∈ wires c ∧ y ∈ wires c

/-- Spec: the representative of the class of `x`: the least protected signal of the class, or the least signal when none is
protected. -/
def IsRep (eqs : List C) (forb : List Nat) (x rh : Nat) : Prop :=
  Linked eqs x rh ∧ ((rh ∈ forb ∧ ∀ y, Linked eqs x y → y ∈ forb → rh ≤ y) ∨ ∀ y, Linked eqs x y → y ∉ forb ∧ rh ≤ y)

theorem IsRep.unique {eqs : List C} {forb : List Nat} {x r r' : Nat} (h : IsRep eqs forb x r) (h' : IsRep eqs forb x r') :
    r = r' := by
  obtain ⟨l, h⟩ := h
  obtain ⟨l', h'⟩ := h'
  rcases h with ⟨a, b⟩ | b <;> rcases h' with ⟨c, d⟩ | d
  · exact le_antisymm (b r' l' c) (d r l a)
  · exact absurd a (d r l).1
  · exact absurd c (b r' l').1
  · exact le_antisymm (b r' l').2 (d r l).2

/-- A link between two signals of an equality constraint stays inside one cluster. -/
theorem linked_block {eqs : List C} {blocks : List (List C)} (hP : Partition eqs blocks)
    (hE : ∀ c ∈ eqs, ∃ s t, EqC p c s t) {B : List C} (hB : B ∈ blocks) {x y : Nat} (hx : ∃ c ∈ B, c.Occurs x)
    (hl : Linked eqs x y) : ∃ c ∈ B, c.Occurs y := by
  induction hl with
  | refl => exact hx
  | tail _ hs ih =>
    rename_i b c0 _
    obtain ⟨c, hc, hb, hc'⟩ := hs
    rw [mem_wires] at hb hc'
    obtain ⟨d, hd, hdb⟩ := ih
    obtain ⟨s, t, he⟩ := hE c hc
    have hnz : ∀ z, c.Occurs z → z ≠ 0 := by
      intro z hz
      have := he.nz; have := he.lt
      rcases (he.occurs z).1 hz with rfl | rfl <;> omega
    have hcne : c.isEmpty = false := by
      cases hce : c.isEmpty with
      | false => rfl
      | true =>
        exfalso
        obtain ⟨a, b', c'⟩ := c
        cases a <;> cases b' <;> cases c' <;> simp [Constraint.isEmpty] at hce
        simp [Constraint.Occurs, CMap.keys] at hb
    have hcf : c ∈ blocks.flatten := hP.perm.mem_iff.2 (List.mem_filter.2 ⟨hc, by simp [hcne]⟩)
    obtain ⟨B', hB', hcB'⟩ := List.mem_flatten.1 hcf
    by_cases hBB : B = B'
    · subst hBB; exact ⟨c, hcB', hc'⟩
    · exfalso
      have h1 : b ∈ signalSet d := (Verif.Simplification.mem_signalSet d b).2 ⟨hnz b hb, hdb⟩
      have h2 : b ∈ signalSet c := (Verif.Simplification.mem_signalSet c b).2 ⟨hnz b hb, hb⟩
      have hsym : ∀ A ∈ blocks, ∀ B ∈ blocks, A ≠ B → ∀ a ∈ A, ∀ b ∈ B, ∀ s, s ∈ signalSet a → s ∉ signalSet b := by
        have : Std.Symm fun A B : List C => ∀ a ∈ A, ∀ b ∈ B, ∀ s, s ∈ signalSet a → s ∉ signalSet b :=
          ⟨fun A B h b hb a ha s h1 h2 => h a ha b hb s h2 h1⟩
        intro A hA B hB hne
        exact hP.disjoint.forall hA hB hne
      exact hsym B hB B' hB' hBB d hd c hcB' b h1 h2

theorem block_linked {eqs : List C} {blocks : List (List C)} (hP : Partition eqs blocks) {B : List C} (hB : B ∈ blocks)
    {a b : C} (ha : a ∈ B) (hb : b ∈ B) {x y : Nat} (hx : a.Occurs x) (hy : b.Occurs y) : Linked eqs x y := by
  have hin : ∀ c ∈ B, c ∈ eqs := fun c hc => partition_mem hP c (List.mem_flatten.2 ⟨B, hB, hc⟩)
  have := hP.connected B hB a ha b hb
  clear hb
  induction this generalizing y with
  | refl => exact Relation.ReflTransGen.single ⟨a, hin a ha, (mem_wires a x).2 hx, (mem_wires a y).2 hy⟩
  | tail _ hs ih =>
    obtain ⟨h1, h2, s, h3, h4⟩ := hs
    refine (ih ((Verif.Simplification.mem_signalSet _ s).1 h3).2).tail ?_
    exact ⟨_, hin _ h2, (mem_wires _ _).2 ((Verif.Simplification.mem_signalSet _ s).1 h4).2, (mem_wires _ y).2 hy⟩

/-- C24: the equality phase never aborts; together with the substitutions the remaining constraints are equivalent to the
equalities; each substitution replaces an unprotected signal by the representative of its class; every unprotected signal that is
not the representative is replaced; the remaining constraints mention protected signals only and force all protected signals of one
class to be equal. -/
theorem C24_merge (hp : p.Prime) (sched : Sched) (hs : sched.Valid) (eqs : List C) (forb : List Nat) (maxSignal : Nat)
    (ht : ∀ c ∈ eqs, Tidy p c) (hE : ∀ c ∈ eqs, c.isEquality p = true) (hb : ∀ c ∈ eqs, ∀ x ∈ wires c, x < maxSignal) :
    ∃ subs cons, eqSimplification sched eqs forb maxSignal p = .ok (subs, cons) ∧
      (∀ ρ : Nat → ZMod p, (∀ c ∈ eqs, c.Holds ρ) ↔ (∀ s ∈ subs, ρ s.frm = ev ρ s.rhs) ∧ ∀ c ∈ cons, c.Holds ρ) ∧
      (subs.map fun s => s.frm).Nodup ∧
      (∀ s ∈ subs, s.frm ∉ forb ∧ (∃ c ∈ eqs, s.frm ∈ wires c) ∧ ∃ rh, rh ≠ s.frm ∧ IsRep eqs forb s.frm rh ∧ s.rhs = [(rh, 1)]) ∧
      (∀ c ∈ eqs, ∀ x ∈ wires c, x ∉ forb → IsRep eqs forb x x ∨ ∃ s ∈ subs, s.frm = x) ∧
      (∀ c ∈ cons, ∀ x ∈ wires c, x = 0 ∨ x ∈ forb) ∧
      (∀ ρ : Nat → ZMod p, (∀ c ∈ cons, c.Holds ρ) → ∀ x y, x ∈ forb → y ∈ forb → Linked eqs x y → ρ x = ρ y) := by
  have hE' : ∀ c ∈ eqs, ∃ s t, EqC p c s t := fun c hc => eqC_of hp (ht c hc).clean (hE c hc)
  obtain ⟨blocks, outs, subs, h1, h2, h3, h4⟩ := eqSimplification_clusters hp sched hs eqs forb maxSignal hE'
    (fun c hc x hx => hb c hc x ((mem_wires c x).2 hx))
  have hin : ∀ B ∈ blocks, ∀ c ∈ B, c ∈ eqs := fun B hB c hc => partition_mem h2 c (List.mem_flatten.2 ⟨B, hB, hc⟩)
  have hout : ∀ c ∈ eqs, ∀ x, c.Occurs x → ∃ B ∈ blocks, ∃ r ∈ outs, ∃ rh, EqOut p forb B r.1 r.2 rh ∧ c ∈ B := by
    intro c hc x hx
    have hcne : c.isEmpty = false := by
      cases hce : c.isEmpty with
      | false => rfl
      | true =>
        exfalso
        obtain ⟨a, b', c'⟩ := c
        cases a <;> cases b' <;> cases c' <;> simp [Constraint.isEmpty] at hce
        simp [Constraint.Occurs, CMap.keys] at hx
    obtain ⟨B, hB, hcB⟩ := List.mem_flatten.1 (h2.perm.mem_iff.2 (List.mem_filter.2 ⟨hc, by simp [hcne]⟩))
    obtain ⟨r, hr, rh, ho⟩ := forall₂_exists_right h3 B hB
    exact ⟨B, hB, r, hr, rh, ho, hcB⟩
  -- the representative of a cluster
  have hrep : ∀ B ∈ blocks, ∀ r : List S × List C, ∀ rh, EqOut p forb B r.1 r.2 rh → ∀ x, (∃ c ∈ B, c.Occurs x) → IsRep eqs forb x rh := by
    intro B hB r rh ho x ⟨c, hc, hx⟩
    obtain ⟨d, hd, hrh⟩ := ho.rep.2
    refine ⟨block_linked h2 hB hc hd hx hrh, ?_⟩
    by_cases hf : rh ∈ forb
    · left
      refine ⟨hf, fun y hy hyf => ?_⟩
      obtain ⟨e, he, hye⟩ := linked_block h2 hE' hB ⟨c, hc, hx⟩ hy
      rcases ho.repMin e he y hye with h | h
      · exact h.2 hyf
      · exact absurd hyf h.1
    · right
      intro y hy
      obtain ⟨e, he, hye⟩ := linked_block h2 hE' hB ⟨c, hc, hx⟩ hy
      rcases ho.repMin e he y hye with h | h
      · exact absurd h.1 hf
      · exact ⟨h.1, h.2.2⟩
  have hsol := solved_flatten (h3.imp fun _ _ ⟨rh, h⟩ => h.solved) h2.disjoint
  have hsol' := hsol.perm h4 (List.Perm.refl _) (fun ρ => partition_holds h2 ρ) (fun c hc => partition_mem h2 c hc)
  have hsub : ∀ s ∈ subs, ∃ B ∈ blocks, ∃ r ∈ outs, ∃ rh, EqOut p forb B r.1 r.2 rh ∧ s ∈ r.1 := by
    intro s hs
    obtain ⟨r, hr, hs⟩ := List.mem_flatMap.1 (h4.mem_iff.1 hs)
    obtain ⟨B, hB, rh, ho⟩ := forall₂_exists_left h3 r hr
    exact ⟨B, hB, r, hr, rh, ho, hs⟩
  refine ⟨subs, _, h1, fun ρ => ?_, hsol'.nodup, fun s hs => ?_, fun c hc x hx hxf => ?_, fun c hc x hx => ?_, fun ρ hρ x y hx hy hl => ?_⟩
  · -- the equivalence does not need the constant wire here
    rw [partition_holds h2 ρ]
    have : ∀ (bl : List (List C)) (os : List (List S × List C)),
        List.Forall₂ (fun B (r : List S × List C) => ∃ rh, EqOut p forb B r.1 r.2 rh) bl os →
        ((∀ c ∈ bl.flatten, c.Holds ρ) ↔ (∀ s ∈ os.flatMap Prod.fst, s.Holds ρ) ∧ ∀ c ∈ os.flatMap Prod.snd, c.Holds ρ) := by
      intro bl os h
      induction h with
      | nil => simp
      | cons h _ ih =>
        obtain ⟨rh, h⟩ := h
        simp only [List.flatten_cons, List.flatMap_cons, List.forall_mem_append]
        rw [ih, h.equiv ρ]; tauto
    rw [this _ _ h3]
    simp only [← h4.mem_iff]
    exact Iff.rfl
  · obtain ⟨B, hB, r, hr, rh, ho, hs⟩ := hsub s hs
    obtain ⟨q1, q2, q3, c, hc, q4, q5⟩ := ho.rhs s hs
    exact ⟨q3, ⟨c, hin B hB c hc, (mem_wires c _).2 q5⟩, rh, q2.symm, hrep B hB r rh ho s.frm ⟨c, hc, q5⟩, q1⟩
  · rw [mem_wires] at hx
    obtain ⟨B, hB, r, hr, rh, ho, hcB⟩ := hout c hc x hx
    rcases ho.gone c hcB x hx hxf with h | ⟨s, hs, h⟩
    · left; have := hrep B hB r rh ho x ⟨c, hcB, hx⟩; rwa [← h] at this
    · exact Or.inr ⟨s, h4.mem_iff.2 (List.mem_flatMap.2 ⟨r, hr, hs⟩), h⟩
  · rw [mem_wires] at hx
    rcases hsol'.prot c hc x hx with h | h
    · exact Or.inl h
    · exact Or.inr h.1
  · rcases Relation.ReflTransGen.cases_head hl with rfl | ⟨z, ⟨c, hc, hxc, _⟩, _⟩
    · rfl
    · rw [mem_wires] at hxc
      obtain ⟨B, hB, r, hr, rh, ho, hcB⟩ := hout c hc x hxc
      obtain ⟨d, hd, hyd⟩ := linked_block h2 hE' hB ⟨c, hcB, hxc⟩ hl
      have hcons : ∀ c ∈ r.2, c.Holds ρ := fun c hc => hρ c (List.mem_flatMap.2 ⟨r, hr, hc⟩)
      rw [ho.link ρ hcons c hcB x hxc hx, ho.link ρ hcons d hd y hyd hy]

/-- Hypotheses of C24 and a run: three equalities, signal 2 protected. -/
example : (∀ c ∈ sample.equalities, Tidy 13 c ∧ c.isEquality 13 = true ∧ ∀ x ∈ wires c, x < 11) ∧
    eqSimplification plain sample.equalities [0, 1, 2] 11 13 =
      .ok ([⟨8, [(7, 1)]⟩, ⟨5, [(2, 1)]⟩, ⟨6, [(2, 1)]⟩], []) := by
  constructor
  · decide
  · decide +kernel

theorem bmap_ext {V : Type} {m m' : BMap V} (h : BMap.Sorted m) (h' : BMap.Sorted m') (he : ∀ k, BMap.get m k = BMap.get m' k) : m = m' := by
  refine List.Perm.eq_of_pairwise (le := fun a b : Nat × V => a.1 < b.1) ?_ h h' ?_
  · intro a b _ _ h1 h2; exact absurd h1 (by omega)
  · have hn : m.Nodup := h.imp fun {a b} hab => by rintro rfl; omega
    have hn' : m'.Nodup := h'.imp fun {a b} hab => by rintro rfl; omega
    rw [List.perm_ext_iff_of_nodup hn hn']
    rintro ⟨k, v⟩
    rw [← BMap.get_eq_some_iff h, ← BMap.get_eq_some_iff h', he]

/-- C24/C26: the substitution map of the equality phase is the same for every schedule (hash orders and arrival orders). -/
theorem C24_deterministic (hp : p.Prime) (sched sched' : Sched) (hs : sched.Valid) (hs' : sched'.Valid) (eqs : List C) (forb : List Nat)
    (maxSignal : Nat) (ht : ∀ c ∈ eqs, Tidy p c) (hE : ∀ c ∈ eqs, c.isEquality p = true)
    (hb : ∀ c ∈ eqs, ∀ x ∈ wires c, x < maxSignal) (subs subs' : List S) (cons cons' : List C)
    (h : eqSimplification sched eqs forb maxSignal p = .ok (subs, cons))
    (h' : eqSimplification sched' eqs forb maxSignal p = .ok (subs', cons')) :
    buildEncoded subs = buildEncoded subs' := by
  obtain ⟨s1, c1, a1, _, a3, a4, a5, _⟩ := C24_merge hp sched hs eqs forb maxSignal ht hE hb
  obtain ⟨s2, c2, b1, _, b3, b4, b5, _⟩ := C24_merge hp sched' hs' eqs forb maxSignal ht hE hb
  rw [h] at a1; injection a1 with a1; injection a1 with e1 e2; subst e1
  rw [h'] at b1; injection b1 with b1; injection b1 with e1 e2; subst e1
  have half : ∀ (s1 s2 : List S),
      (∀ s ∈ s1, s.frm ∉ forb ∧ (∃ c ∈ eqs, s.frm ∈ wires c) ∧ ∃ rh, rh ≠ s.frm ∧ IsRep eqs forb s.frm rh ∧ s.rhs = [(rh, 1)]) →
      (∀ s ∈ s2, s.frm ∉ forb ∧ (∃ c ∈ eqs, s.frm ∈ wires c) ∧ ∃ rh, rh ≠ s.frm ∧ IsRep eqs forb s.frm rh ∧ s.rhs = [(rh, 1)]) →
      (∀ c ∈ eqs, ∀ x ∈ wires c, x ∉ forb → IsRep eqs forb x x ∨ ∃ s ∈ s2, s.frm = x) →
      ∀ x v, BMap.get (buildEncoded s1) x = some v → BMap.get (buildEncoded s2) x = some v := by
    intro s1 s2 f1 f2 g2 x v hv
    obtain ⟨s, hs, rfl, rfl⟩ := buildEncoded_get hv
    obtain ⟨q1, ⟨c, hc, q2⟩, rh, q3, q4, q5⟩ := f1 s hs
    rcases g2 c hc _ q2 q1 with hr | ⟨t, ht, htf⟩
    · exact absurd (q4.unique hr) q3
    · obtain ⟨e, he⟩ := Option.isSome_iff_exists.1 (buildEncoded_isSome ht)
      obtain ⟨u, hu, hu1, hu2⟩ := buildEncoded_get he
      obtain ⟨_, _, rh', _, r4, r5⟩ := f2 u hu
      rw [hu1, htf] at r4
      rw [htf] at he
      rw [he, hu2, r5, q5, r4.unique q4]
  refine bmap_ext (buildEncoded_sorted _) (buildEncoded_sorted _) fun k => ?_
  cases hk : BMap.get (buildEncoded subs) k with
  | some v => exact (half subs subs' a4 b4 b5 k v hk).symm
  | none =>
    cases hk' : BMap.get (buildEncoded subs') k with
    | none => rfl
    | some v => rw [half subs' subs b4 a4 a5 k v hk'] at hk; cases hk

/-- The two schedules produce the substitutions in different order and the same map. -/
example : (eqSimplification reversed sample.equalities [0, 1, 2] 11 13 =
      .ok ([⟨8, [(7, 1)]⟩, ⟨6, [(2, 1)]⟩, ⟨5, [(2, 1)]⟩], [])) ∧
    buildEncoded [⟨8, [(7, 1)]⟩, ⟨6, [(2, 1)]⟩, ⟨5, [(2, 1)]⟩] = [(5, .signal 2), (6, .signal 2), (8, .signal 7)] := by
  constructor <;> decide +kernel

/-! ## C25 -/

/-- C25, the part that holds: the constant phase never aborts; every solution of the constant equalities satisfies the substitution
map and the remaining constraints; conversely when the constant equalities have a solution at all.  Exactly the unprotected signals
are eliminated, and their values are constants.
Missing: the converse for contradictory constants, which is false (`C25_violated`). -/
theorem C25_constants_partial (hp : p.Prime) (forb : List Nat) (cs : List C) (ht : ∀ c ∈ cs, Tidy p c)
    (hK : ∀ c ∈ cs, c.isConstantEquality = true) :
    ∃ subs cons, constantEq forb p cs = .ok (subs, cons) ∧
      (∀ ρ : Nat → ZMod p, Sat cs ρ → EncHolds ρ (buildEncoded subs) ∧ ∀ c ∈ cons, c.Holds ρ) ∧
      ((∃ ρ : Nat → ZMod p, Sat cs ρ) → ∀ ρ : Nat → ZMod p, ρ 0 = 1 → EncHolds ρ (buildEncoded subs) → (∀ c ∈ cons, c.Holds ρ) → Sat cs ρ) ∧
      (∀ x, (BMap.get (buildEncoded subs) x).isSome ↔ x ≠ 0 ∧ x ∉ forb ∧ ∃ c ∈ cs, x ∈ wires c) ∧
      (∀ x e, BMap.get (buildEncoded subs) x = some e → ∀ y ∈ (exprMap e).keys, y = 0) ∧
      (∀ c ∈ cons, ∀ x ∈ wires c, x = 0 ∨ x ∈ forb) := by
  have hkc : ∀ c ∈ cs, ∃ s v, KC p c s v := fun c hc => kc_of hp (ht c hc).clean (hK c hc)
  obtain ⟨subs, cons, h1, h2⟩ := constantEq_spec hp forb cs hkc
  refine ⟨subs, cons, h1, fun ρ hρ => ?_, ?_, fun x => ?_, fun x e hg y hy => ?_, fun c hc x hx => ?_⟩
  · obtain ⟨q1, q2⟩ := (h2.equiv ρ).1 hρ.2
    exact ⟨encHolds_buildEncoded q1, q2⟩
  · rintro ⟨ρ0, h0, hs⟩ ρ hρ he hc
    exact ⟨hρ, (h2.equiv ρ).2 ⟨h2.hold_of_enc ρ0 h0 hs ρ hρ he, hc⟩⟩
  · rw [buildEncoded_isSome_iff]
    constructor
    · rintro ⟨t, ht, rfl⟩
      obtain ⟨q1, q2, c, hc, q3⟩ := h2.froms t ht
      exact ⟨q1, q2, c, hc, (mem_wires c _).2 q3⟩
    · rintro ⟨hx0, hxf, c, hc, hx⟩
      by_contra hno
      -- with `x` not substituted, its value would be free
      obtain ⟨s, v, hk⟩ := hkc c hc
      have hxs : x = s := by
        rcases hk.only x ((mem_wires c x).1 hx) with h | h
        · exact h
        · exact absurd h hx0
      subst hxs
      have hpf : Fact p.Prime := ⟨hp⟩
      have : ∀ (cs : List C) (subs : List S) (cons : List C), (∀ c ∈ cs, ∃ s v, KC p c s v) → constantEq forb p cs = .ok (subs, cons) →
          c ∈ cs → ∃ t ∈ subs, t.frm = x := by
        intro cs
        induction cs with
        | nil => intro _ _ _ _ hc; simp at hc
        | cons d cs ih =>
          intro subs cons hkc h hc
          obtain ⟨s, w, hd⟩ := hkc d (by simp)
          unfold constantEq at h
          simp only [orderedSignals_kc hd] at h
          obtain ⟨sb, cn, g1, g2⟩ := constantEq_spec hp forb cs (fun c hc => hkc c (by simp [hc]))
          by_cases hsf : s ∈ forb
          · simp only [List.contains_iff_mem, hsf, if_true, g1, ok_bind] at h
            injection h with h; injection h with e1 e2
            rcases List.mem_cons.1 hc with rfl | hc
            · exfalso
              rcases hd.only x hk.occ with h' | h'
              · exact hxf (h' ▸ hsf)
              · exact hx0 h'
            · rw [← e1]; exact ih sb cn (fun c hc => hkc c (by simp [hc])) g1 hc
          · have hli : d.isLinear = true := (isLinear_iff d).2 ⟨hd.lin.a, hd.lin.b⟩
            obtain ⟨t, t1, t2, _⟩ := Verif.Props.Algebra.C16_clear_signal hp d hli hd.lin.wf hd.lin.canon hd.lin.nz s
              ((occurs_lin hd.lin s).1 hd.occ) hd.nz
            simp only [List.contains_iff_mem, hsf, if_false, g1, ok_bind, t1] at h
            injection h with h; injection h with e1 e2
            rcases List.mem_cons.1 hc with rfl | hc
            · refine ⟨t, by rw [← e1]; simp, ?_⟩
              rw [t2]
              rcases hd.only x hk.occ with h' | h'
              · exact h'.symm
              · exact absurd h' hx0
            · obtain ⟨u, hu, h3⟩ := ih sb cn (fun c hc => hkc c (by simp [hc])) g1 hc
              exact ⟨u, by rw [← e1]; simp [hu], h3⟩
      exact hno (this cs subs cons hkc h1 hc)
  · obtain ⟨t, ht, _, rfl⟩ := buildEncoded_get hg
    rcases keys_mapIntoArith _ _ hy with h | h
    · exact h
    · exact h2.rhs t ht y h
  · rcases h2.prot c hc x ((mem_wires c x).1 hx) with h | h
    · exact Or.inl h
    · exact Or.inr h.1

/-- Hypotheses of C25 and a run: 9 = 4, 2 = 3 (protected), 9 = 4 again. -/
example : (∀ c ∈ ([⟨[], [], [(9, 1), (0, 9)]⟩, ⟨[], [], [(2, 1), (0, 10)]⟩, ⟨[], [], [(0, 5), (9, 2)]⟩] : List C),
      Tidy 13 c ∧ c.isConstantEquality = true) ∧
    constantEq [0, 1, 2] 13 [⟨[], [], [(9, 1), (0, 9)]⟩, ⟨[], [], [(2, 1), (0, 10)]⟩, ⟨[], [], [(0, 5), (9, 2)]⟩] =
      .ok ([⟨9, [(0, 4)]⟩, ⟨9, [(0, 4)]⟩], [⟨[], [], [(2, 1), (0, 10)]⟩]) := by
  constructor
  · decide
  · decide +kernel

/-- A circuit that forces one inner signal to two values: `x === 3; x === 4;`. -/
def contradictory : Input where
  field := 13
  nonLinear := []
  noPublicInputs := 0
  noPublicOutputs := 0
  noPrivateInputs := 0
  forbidden := [0]
  consEqualities := [⟨[], [], [(1, 1), (0, 10)]⟩, ⟨[], [], [(1, 1), (0, 9)]⟩]
  equalities := []
  linear := []
  maxSignal := 2
  noRounds := 1
  flagS := true
  oldHeuristics := false

/-- C25/C28, violated: the contradictory system is simplified to the empty system: an unsatisfiable circuit becomes one that every
assignment satisfies.  The converse direction of C25 and the soundness claim C28 fail without a side condition. -/
theorem C25_violated : Valid 13 contradictory ∧ (¬ ∃ ρ : Nat → ZMod 13, Sat (original contradictory) ρ) ∧
    ∃ out, simplification plain enough contradictory = .ok out ∧ ∀ ρ : Nat → ZMod 13, ρ 0 = 1 → Sat out.storage ρ := by
  refine ⟨⟨rfl, by decide, by decide, by decide, by decide, by decide, by decide, by decide⟩, ?_, ?_⟩
  · rintro ⟨ρ, h0, h⟩
    have h1 := h ⟨[], [], [(1, 1), (0, 10)]⟩ (by decide)
    have h2 := h ⟨[], [], [(1, 1), (0, 9)]⟩ (by decide)
    simp only [Constraint.Holds, ev_cons, ev_nil, h0] at h1 h2
    rw [h1] at h2
    revert h2
    generalize ρ 1 = y
    revert y
    decide
  · have : (match simplification plain enough contradictory with | .ok o => o.storage.isEmpty | _ => false) = true := by decide +kernel
    cases ho : simplification plain enough contradictory with
    | error e => rw [ho] at this; cases this
    | ok out =>
      rw [ho] at this
      refine ⟨out, rfl, fun ρ hρ => ⟨hρ, ?_⟩⟩
      rw [List.isEmpty_iff.1 this]; simp

/-! ## C26 -/

/-- C26, equality phase: with the same clusters, another arrival order gives the same remaining constraints in the same order,
the same substitutions up to order, and the same substitution map. -/
theorem C26_equalities (hp : p.Prime) (sched sched' : Sched) (hs : sched.Valid) (hs' : sched'.Valid) (hsame : sched'.sets = sched.sets)
    (eqs : List C) (forb : List Nat) (maxSignal : Nat) (ht : ∀ c ∈ eqs, Tidy p c) (hE : ∀ c ∈ eqs, c.isEquality p = true)
    (hb : ∀ c ∈ eqs, ∀ x ∈ wires c, x < maxSignal) :
    ∃ subs subs' cons, eqSimplification sched eqs forb maxSignal p = .ok (subs, cons) ∧
      eqSimplification sched' eqs forb maxSignal p = .ok (subs', cons) ∧ subs.Perm subs' ∧ buildEncoded subs = buildEncoded subs' := by
  have hE' : ∀ c ∈ eqs, ∃ s t, EqC p c s t := fun c hc => eqC_of hp (ht c hc).clean (hE c hc)
  obtain ⟨_, outs, subs, h1, _⟩ := eqSimplification_clusters hp sched hs eqs forb maxSignal hE'
    (fun c hc x hx => hb c hc x ((mem_wires c x).2 hx))
  have key : ∃ subs', eqSimplification sched' eqs forb maxSignal p = .ok (subs', outs.flatMap Prod.snd) ∧ subs.Perm subs' := by
    unfold eqSimplification at h1 ⊢
    rw [hsame]
    obtain ⟨clusters, e1, h1⟩ := (Verif.Props.Algebra.bind_ok_iff _ _ _).1 h1
    obtain ⟨results, e2, h1⟩ := (Verif.Props.Algebra.bind_ok_iff _ _ _).1 h1
    injection h1 with h1
    injection h1 with h1 h1'
    rw [e1, ok_bind, e2, ok_bind]
    refine ⟨_, by rw [h1'], ?_⟩
    rw [← h1]
    refine List.Perm.flatMap_right _ (List.Perm.append_left _ ?_)
    exact (reorder_perm (hs.arrive 0 _)).trans (reorder_perm (hs'.arrive 0 _)).symm
  obtain ⟨subs', h2, h3⟩ := key
  exact ⟨subs, subs', _, h1, h2, h3, C24_deterministic hp sched sched' hs hs' eqs forb maxSignal ht hE hb subs subs' _ _ h1 h2⟩

theorem runClusters_perm {α : Type} (f g : Nat → List C → Res (List S × α)) (ks : List Cluster)
    (h : ∀ n cs r, f n cs = .ok r → ∃ l, g n cs = .ok (l, r.2) ∧ r.1.Perm l) : ∀ n rs, runClusters f n ks = .ok rs →
    ∃ rs', runClusters g n ks = .ok rs' ∧ List.Forall₂ (fun r r' => r.1.Perm r'.1 ∧ r.2 = r'.2) rs rs' := by
  induction ks with
  | nil => intro n rs hr; injection hr with hr; subst hr; exact ⟨[], rfl, List.Forall₂.nil⟩
  | cons k ks ih =>
    intro n rs hr
    unfold runClusters at hr ⊢
    obtain ⟨r, e1, hr⟩ := (Verif.Props.Algebra.bind_ok_iff _ _ _).1 hr
    obtain ⟨rs1, e2, hr⟩ := (Verif.Props.Algebra.bind_ok_iff _ _ _).1 hr
    injection hr with hr
    obtain ⟨l, g1, g2⟩ := h n _ _ e1
    obtain ⟨rs', i1, i2⟩ := ih _ _ e2
    refine ⟨(l, r.2) :: rs', ?_, ?_⟩
    · rw [g1, ok_bind, i1, ok_bind]
    · rw [← hr]; exact List.Forall₂.cons ⟨g2, rfl⟩ i2

theorem flatMap_perm_forall₂ {α : Type} {rs rs' : List (List S × List α)}
    (h : List.Forall₂ (fun r r' => r.1.Perm r'.1 ∧ r.2 = r'.2) rs rs') :
    (rs.flatMap Prod.fst).Perm (rs'.flatMap Prod.fst) ∧ rs.flatMap Prod.snd = rs'.flatMap Prod.snd := by
  induction h with
  | nil => exact ⟨List.Perm.refl _, rfl⟩
  | cons h _ ih =>
    simp only [List.flatMap_cons]
    exact ⟨h.1.append ih.1, by rw [h.2, ih.2]⟩

theorem buildEncoded_perm {subs subs' : List S} (hn : (subs.map fun s => s.frm).Nodup) (h : subs.Perm subs') :
    buildEncoded subs = buildEncoded subs' := by
  have hn' : (subs'.map fun s => s.frm).Nodup := (h.map _).nodup_iff.1 hn
  refine bmap_ext (buildEncoded_sorted _) (buildEncoded_sorted _) fun k => ?_
  have half : ∀ (a b : List S), (b.map fun s => s.frm).Nodup → a.Perm b → ∀ v, BMap.get (buildEncoded a) k = some v →
      BMap.get (buildEncoded b) k = some v := by
    intro a b hb hab v hv
    obtain ⟨t, ht, rfl, rfl⟩ := buildEncoded_get hv
    exact buildEncoded_of_nodup hb (hab.mem_iff.1 ht)
  cases hk : BMap.get (buildEncoded subs) k with
  | some v => exact (half _ _ hn' h v hk).symm
  | none =>
    cases hk' : BMap.get (buildEncoded subs') k with
    | none => rfl
    | some v => rw [half _ _ hn h.symm v hk'] at hk; cases hk

/-- C26, linear phase: with the same hash orders inside the clusters, another arrival order (and another order in which the
substitutions leave the per-cluster hash maps) gives the same constraints and substitutions up to order and the same
substitution map. -/
theorem C26_linear (hp : p.Prime) (sched sched' : Sched) (hs : sched.Valid) (hs' : sched'.Valid) (hsets : sched'.sets = sched.sets)
    (hhash : sched'.hash = sched.hash) (ph : Nat) (fuel : List C → Nat) (hfuel : EnoughFuel fuel) (linear : List C) (forb : List Nat)
    (h0 : 0 ∈ forb) (maxSignal : Nat) (old : Bool) (ht : ∀ c ∈ linear, Tidy p c ∧ c.a = [] ∧ c.b = [])
    (hb : ∀ c ∈ linear, ∀ x ∈ wires c, x < maxSignal) :
    ∃ subs subs' cons cons', linearSimplification sched ph fuel linear forb maxSignal p old = .ok (subs, cons) ∧
      linearSimplification sched' ph fuel linear forb maxSignal p old = .ok (subs', cons') ∧ subs.Perm subs' ∧ cons.Perm cons' ∧
      buildEncoded subs = buildEncoded subs' := by
  obtain ⟨subs, cons, h1, h2, _⟩ := linearSimplification_spec hp sched hs ph fuel hfuel linear forb h0 maxSignal old
    (fun c hc => Clean.linClean (ht c hc).1.clean ((isLinear_iff c).2 (ht c hc).2))
    (fun c hc x hx _ => hb c hc x ((mem_wires c x).2 hx))
  have key : ∃ subs' cons', linearSimplification sched' ph fuel linear forb maxSignal p old = .ok (subs', cons') ∧ subs.Perm subs' ∧
      cons.Perm cons' := by
    unfold linearSimplification at h1 ⊢
    rw [hsets, hhash]
    obtain ⟨clusters, e1, h1⟩ := (Verif.Props.Algebra.bind_ok_iff _ _ _).1 h1
    obtain ⟨results, e2, h1⟩ := (Verif.Props.Algebra.bind_ok_iff _ _ _).1 h1
    injection h1 with h1
    injection h1 with h1 h1'
    obtain ⟨results', i1, i2⟩ := runClusters_perm _ (fun id cs => do
      let r ← fullSimplification (sched.hash ph id) forb p old (fuel cs) cs
      .ok (reorder (sched'.leave ph id r.substitutions.length) r.substitutions, r.constraints)) clusters (by
        intro n cs r hr
        obtain ⟨o, o1, hr⟩ := (Verif.Props.Algebra.bind_ok_iff _ _ _).1 hr
        injection hr with hr
        subst hr
        refine ⟨_, by simp only [o1, ok_bind]; rfl, ?_⟩
        exact (reorder_perm (hs.leave ph n _)).trans (reorder_perm (hs'.leave ph n _)).symm) 0 results e2
    obtain ⟨f1, f2⟩ := flatMap_perm_forall₂ i2
    have hr1 := reorder_perm (l := results) (hs.arrive ph _)
    have hr2 := reorder_perm (l := results') (hs'.arrive ph _)
    rw [e1, ok_bind]
    refine ⟨_, _, by rw [i1, ok_bind], ?_, ?_⟩
    · rw [← h1]
      exact ((hr1.flatMap_right _).trans f1).trans (hr2.flatMap_right _).symm
    · rw [← h1']
      refine ((hr1.flatMap_right _).trans ?_).trans (hr2.flatMap_right _).symm
      rw [f2]
  obtain ⟨subs', cons', h3, h4, h5⟩ := key
  exact ⟨subs, subs', cons, cons', h1, h3, h4, h5, buildEncoded_perm h2.nodup h4⟩

/-- Sample: two clusters; two arrival orders. -/
def twoClusters : List C := [⟨[], [], [(1, 1), (5, 2), (6, 1)]⟩, ⟨[], [], [(2, 1), (7, 1), (8, 3)]⟩]

example : (∀ c ∈ twoClusters, (Tidy 13 c ∧ c.a = [] ∧ c.b = []) ∧ ∀ x ∈ wires c, x < 9) ∧
    linearSimplification plain 2 enough twoClusters [0, 1, 2] 9 13 false ≠
      linearSimplification { plain with arrive := fun _ n => (List.range n).reverse } 2 enough twoClusters [0, 1, 2] 9 13 false := by
  constructor
  · decide
  · decide +kernel

/-! ## C27, C28 -/

/-- C27: simplification never aborts and every solution of the original system is a solution of the simplified one, for every
optimisation level, number of rounds, heuristic and schedule. -/
theorem C27_complete (hp : p.Prime) (sched : Sched) (hs : sched.Valid) (fuel : List C → Nat) (hfuel : EnoughFuel fuel) (smp : Input)
    (hv : Valid p smp) : ∃ out, simplification sched fuel smp = .ok out ∧
      ∀ ρ : Nat → ZMod p, Sat (original smp) ρ → Sat out.storage ρ := by
  obtain ⟨out, subs, del, use, h1, h2, _⟩ := simplification_spec hp sched hs fuel hfuel smp hv.inputOK hv.prot
  exact ⟨out, h1, fun ρ hρ => ⟨hρ.1, (h2.inv.fwd ρ hρ.1 hρ.2).1⟩⟩

/-- C28, under the side condition that the equalities and constant equalities of the circuit have a common solution: every solution
of the simplified system extends to a solution of the original one without changing any signal that keeps a witness position.
Missing: circuits whose equalities and constants contradict each other, where the claim is false (`C25_violated`). -/
theorem C28_sound_partial (hp : p.Prime) (sched : Sched) (hs : sched.Valid) (fuel : List C → Nat) (hfuel : EnoughFuel fuel) (smp : Input)
    (hv : Valid p smp) (hsat : ∃ ρ : Nat → ZMod p, Sat (smp.equalities ++ smp.consEqualities) ρ) :
    ∃ out, simplification sched fuel smp = .ok out ∧
      ∀ ρ : Nat → ZMod p, Sat out.storage ρ → ∃ ρ' : Nat → ZMod p, Sat (original smp) ρ' ∧
        (∀ x, (BMap.get out.map x).isSome → ρ' x = ρ x) ∧ ∀ x ∈ smp.forbidden, ρ' x = ρ x := by
  obtain ⟨out, subs, del, use, h1, h2, _⟩ := simplification_spec hp sched hs fuel hfuel smp hv.inputOK hv.prot
  refine ⟨out, h1, fun ρ hρ => ?_⟩
  obtain ⟨ρ', e1, e2⟩ := extend subs h2.inv.tri h2.inv.self ρ
  have h0 : ρ' 0 = 1 := by
    rw [e1 0 fun s hs h => (h2.inv.froms s hs).1 h.symm]; exact hρ.1
  have hlive : ∀ c ∈ out.storage, c.Holds ρ' := by
    intro c hc
    refine (holds_congr fun x hx => ?_).2 (hρ.2 c hc)
    exact e1 x fun s hs hxs => h2.inv.gone s hs c hc (hxs ▸ hx)
  have hcons : smp.ConstsConsistent p := by
    obtain ⟨ρ0, z0, z⟩ := hsat
    rw [List.forall_mem_append] at z
    exact ⟨ρ0, z0, z.1, z.2⟩
  refine ⟨ρ', ⟨h0, h2.inv.bwd hcons ρ' h0 hlive e2⟩, fun x hx => ?_, fun x hx => ?_⟩
  · refine e1 x fun s hs hxs => ?_
    rw [h2.map] at hx
    split at hx
    · rename_i hk
      exact hk.2.1 ((h2.deleted x).2 ⟨s, hs, hxs.symm⟩)
    · cases hx
  · refine e1 x fun s hs hxs => (h2.inv.froms s hs).2.1 (hxs ▸ hx)

/-- C28, violated: without the side condition of `C28_sound_partial` the statement is false for some circuit. -/
theorem C28_violated : ¬ ∀ smp : Input, Valid 13 smp → ∃ out, simplification plain enough smp = .ok out ∧
    ∀ ρ : Nat → ZMod 13, Sat out.storage ρ → ∃ ρ' : Nat → ZMod 13, Sat (original smp) ρ' := by
  intro h
  obtain ⟨hv, hun, out, h1, h2⟩ := C25_violated
  obtain ⟨out', g1, g2⟩ := h contradictory hv
  rw [h1] at g1; injection g1 with g1; subst g1
  exact hun (g2 (fun _ => 1) (h2 _ rfl))

/-- C27 and C28 together: a circuit that has a solution keeps exactly its solutions on the retained signals. -/
theorem C28_satisfiable_partial (hp : p.Prime) (sched : Sched) (hs : sched.Valid) (fuel : List C → Nat) (hfuel : EnoughFuel fuel)
    (smp : Input) (hv : Valid p smp) (hsat : ∃ ρ : Nat → ZMod p, Sat (original smp) ρ) :
    ∃ out, simplification sched fuel smp = .ok out ∧ ∀ ρ : Nat → ZMod p, Sat out.storage ρ ↔
      ρ 0 = 1 ∧ ∃ ρ' : Nat → ZMod p, Sat (original smp) ρ' ∧ (∀ c ∈ out.storage, ∀ x ∈ wires c, ρ' x = ρ x) := by
  have hsat' : ∃ ρ : Nat → ZMod p, Sat (smp.equalities ++ smp.consEqualities) ρ := by
    obtain ⟨ρ, h0, h⟩ := hsat
    refine ⟨ρ, h0, fun c hc => h c ?_⟩
    unfold original; simp only [List.mem_append] at hc ⊢; tauto
  obtain ⟨out, h1, h2⟩ := C27_complete hp sched hs fuel hfuel smp hv
  obtain ⟨out', h3, h4⟩ := C28_sound_partial hp sched hs fuel hfuel smp hv hsat'
  rw [h1] at h3; injection h3 with h3; subst h3
  obtain ⟨out'', subs, del, use, h5, h6, _⟩ := simplification_spec hp sched hs fuel hfuel smp hv.inputOK hv.prot
  rw [h1] at h5; injection h5 with h5; subst h5
  refine ⟨out, h1, fun ρ => ⟨fun hρ => ⟨hρ.1, ?_⟩, ?_⟩⟩
  · obtain ⟨ρ', g1, g2, g3⟩ := h4 ρ hρ
    refine ⟨ρ', g1, fun c hc x hx => ?_⟩
    rw [mem_wires] at hx
    by_cases hx0 : x = 0
    · subst hx0; exact g3 0 hv.inputOK.zero
    · apply g2
      rw [h6.map, if_pos]
      · rfl
      · refine ⟨h6.inv.bounded c hc x hx hx0, fun hd => ?_, fun hu => ?_⟩
        · obtain ⟨s, hs, rfl⟩ := (h6.deleted x).1 hd
          exact h6.inv.gone s hs c hc hx
        · rw [h6.used c hc x hx0 hx] at hu; cases hu.2.2
  · rintro ⟨hρ0, ρ', g1, g2⟩
    refine ⟨hρ0, fun c hc => ?_⟩
    exact (holds_congr fun x hx => g2 c hc x ((mem_wires c x).2 hx)).1 ((h2 ρ' g1).2 c hc)

/-- A run of the sample for which the side condition holds (with everything zero except forced values): two constraints remain. -/
example : Valid 13 sample ∧ (∃ ρ : Nat → ZMod 13, Sat (sample.equalities ++ sample.consEqualities) ρ) ∧
    (match simplification plain enough sample with
      | .ok o => decide (o.storage.length = 2 ∧ o.map = [(0, 0), (1, 1), (2, 2), (3, 3), (7, 4)] ∧ o.privateInputs = 1)
      | _ => false) = true := by
  refine ⟨sample_valid, ⟨fun x => if x = 0 then 1 else if x = 9 then 4 else 0, by simp, ?_⟩, by decide +kernel⟩
  intro c hc
  simp only [sample, List.mem_append, List.mem_cons, List.not_mem_nil, or_false] at hc
  rcases hc with (rfl | rfl | rfl) | rfl <;> simp [Constraint.Holds, ev_cons, ev_nil]
  decide

/-! ## C29 -/

/-- C29: for all deleted, protected and used sets: the renumbering is defined exactly on the signals that are not deleted and that are
protected or used (or when unused signals are kept), is strictly increasing, fills the positions `0..n-1` without gaps, and keeps the
number of any signal below which everything is retained. -/
theorem C29_renumbering (maxSignal : Nat) (deleted forbidden : List Nat) (used : Nat → Bool) (removeUnused : Bool) :
    let map := (rebuildWitness maxSignal deleted forbidden used removeUnused).1
    (∀ x, (BMap.get map x).isSome ↔ x < maxSignal ∧ x ∉ deleted ∧ (removeUnused = true → x ∈ forbidden ∨ used x = true)) ∧
    (∀ x y i j, BMap.get map x = some i → BMap.get map y = some j → (x < y ↔ i < j)) ∧
    (∀ i, i < map.length ↔ ∃ x, BMap.get map x = some i) ∧
    (∀ x, (∀ y ≤ x, (BMap.get map y).isSome) → BMap.get map x = some x) := by
  intro map
  obtain ⟨h1, h2, h3⟩ := rebuildWitness_spec maxSignal deleted forbidden used removeUnused
  obtain ⟨K, hK⟩ : ∃ K : Nat → Prop, K = Keep deleted forbidden used removeUnused := ⟨_, rfl⟩
  have : DecidablePred K := by rw [hK]; infer_instance
  have hkeep : ∀ x, Keep deleted forbidden used removeUnused x ↔
      x ∉ deleted ∧ (removeUnused = true → x ∈ forbidden ∨ used x = true) := by
    intro x
    unfold Keep
    by_cases hf : x ∈ forbidden <;> cases hu : used x <;> cases removeUnused <;> simp [hf]
  have hmono : ∀ x y, Keep deleted forbidden used removeUnused x → x < y →
      rank (Keep deleted forbidden used removeUnused) x < rank (Keep deleted forbidden used removeUnused) y := by
    intro x y hx hxy
    induction y with
    | zero => omega
    | succ y ih =>
      rw [rank_succ]
      by_cases hxy' : x = y
      · subst hxy'; rw [if_pos hx]; omega
      · have := ih (by omega); omega
  have hsome : ∀ x i, BMap.get map x = some i ↔ (x < maxSignal ∧ Keep deleted forbidden used removeUnused x) ∧
      i = rank (Keep deleted forbidden used removeUnused) x := by
    intro x i
    rw [show BMap.get map x = _ from h2 x]
    split
    · rename_i h; simp only [h, true_and, Option.some.injEq, and_self]; exact eq_comm
    · rename_i h; simp only [h, false_and]; simp
  refine ⟨fun x => ?_, fun x y i j hx hy => ?_, ?_, fun x hx => ?_⟩
  · rw [← hkeep]
    constructor
    · intro h
      obtain ⟨i, hi⟩ := Option.isSome_iff_exists.1 h
      exact ((hsome x i).1 hi).1
    · intro h
      rw [(hsome x _).2 ⟨h, rfl⟩]; rfl
  · obtain ⟨⟨_, kx⟩, rfl⟩ := (hsome x i).1 hx
    obtain ⟨⟨_, ky⟩, rfl⟩ := (hsome y j).1 hy
    constructor
    · exact hmono x y kx
    · intro h
      by_contra hn
      rcases Nat.lt_or_ge y x with h' | h'
      · have := hmono y x ky h'; omega
      · have : x = y := by omega
        subst this; omega
  · -- positions filled: the map lists the kept signals in order
    have hkeys : BMap.keys map = (List.range maxSignal).filter fun x => decide (Keep deleted forbidden used removeUnused x) := by
      refine List.Perm.eq_of_pairwise (le := fun a b => a < b) (by intro a b _ _ h1 h2; omega) ?_ ?_ ?_
      · unfold BMap.keys; rw [List.pairwise_map]; exact h1
      · exact List.Pairwise.filter _ (List.pairwise_lt_range)
      · rw [List.perm_ext_iff_of_nodup (BMap.nodup_keys h1) ((List.nodup_range).filter _)]
        intro x
        rw [← BMap.get_isSome_iff, List.mem_filter, List.mem_range]
        constructor
        · intro h
          obtain ⟨i, hi⟩ := Option.isSome_iff_exists.1 h
          have := ((hsome x i).1 hi).1
          exact ⟨this.1, by simpa using this.2⟩
        · rintro ⟨a, b⟩
          rw [(hsome x _).2 ⟨⟨a, by simpa using b⟩, rfl⟩]; rfl
    have hlen : map.length = rank (Keep deleted forbidden used removeUnused) maxSignal := by
      have : map.length = (BMap.keys map).length := by unfold BMap.keys; simp
      rw [this, hkeys]; rfl
    have hfill : ∀ n i, i < rank (Keep deleted forbidden used removeUnused) n →
        ∃ x < n, Keep deleted forbidden used removeUnused x ∧ rank (Keep deleted forbidden used removeUnused) x = i := by
      intro n
      induction n with
      | zero => intro i hi; simp [rank] at hi
      | succ n ih =>
        intro i hi
        rw [rank_succ] at hi
        by_cases hk : Keep deleted forbidden used removeUnused n
        · rw [if_pos hk] at hi
          by_cases hi' : i < rank (Keep deleted forbidden used removeUnused) n
          · obtain ⟨x, a, b⟩ := ih i hi'
            exact ⟨x, by omega, b⟩
          · exact ⟨n, by omega, hk, by omega⟩
        · rw [if_neg hk] at hi
          obtain ⟨x, a, b⟩ := ih i (by omega)
          exact ⟨x, by omega, b⟩
    intro i
    rw [hlen]
    constructor
    · intro hi
      obtain ⟨x, a, b, c⟩ := hfill _ i hi
      exact ⟨x, (hsome x i).2 ⟨⟨a, b⟩, c.symm⟩⟩
    · rintro ⟨x, hx⟩
      obtain ⟨⟨a, b⟩, rfl⟩ := (hsome x i).1 hx
      exact hmono x maxSignal b a
  · have hall : ∀ y ≤ x, y < maxSignal ∧ Keep deleted forbidden used removeUnused y := by
      intro y hy
      obtain ⟨i, hi⟩ := Option.isSome_iff_exists.1 (hx y hy)
      exact ((hsome y i).1 hi).1
    have hr : ∀ y, y ≤ x → rank (Keep deleted forbidden used removeUnused) y = y := by
      intro y
      induction y with
      | zero => intro _; simp [rank]
      | succ y ih => intro hy; rw [rank_succ, ih (by omega), if_pos (hall y (by omega)).2]
    rw [(hsome x _).2 ⟨hall x le_rfl, rfl⟩, hr x le_rfl]

/-- Signals 3 and 5 deleted, 6 unused; 7 signals. -/
example : (rebuildWitness 8 [3, 5] [0, 1, 2] (fun x => x != 6) true).1 = [(0, 0), (1, 1), (2, 2), (4, 3), (7, 4)] := by decide +kernel

/-- C29 in the pipeline: wire 0, the outputs and the public inputs keep their numbers, every protected signal is retained, positions are
`0..n-1` in signal order, and the reported number of private inputs is the number of private inputs that keep a position. -/
theorem C29_pipeline (hp : p.Prime) (sched : Sched) (hs : sched.Valid) (fuel : List C → Nat) (hfuel : EnoughFuel fuel) (smp : Input)
    (hv : Valid p smp) : ∃ out, simplification sched fuel smp = .ok out ∧
      (∀ x, x ≤ smp.noPublicOutputs + smp.noPublicInputs → BMap.get out.map x = some x) ∧
      (∀ x ∈ smp.forbidden, x < smp.maxSignal → (BMap.get out.map x).isSome) ∧
      (∀ x y i j, BMap.get out.map x = some i → BMap.get out.map y = some j → (x < y ↔ i < j)) ∧
      (∀ i, i < out.map.length ↔ ∃ x, BMap.get out.map x = some i) ∧
      out.privateInputs = ((List.range' (smp.noPublicOutputs + smp.noPublicInputs + 1) smp.noPrivateInputs).filter
        fun x => (BMap.get out.map x).isSome).length := by
  obtain ⟨out, subs, del, use, h1, h2, all, h3, h4, h5⟩ := simplification_spec hp sched hs fuel hfuel smp hv.inputOK hv.prot
  have hmap : out.map = (rebuildWitness smp.maxSignal del smp.forbidden use true).1 := by
    obtain ⟨w1, w2, _⟩ := rebuildWitness_spec smp.maxSignal del smp.forbidden use true
    exact bmap_ext h2.sorted w1 fun k => by rw [h2.map, w2]
  obtain ⟨r1, r2, r3, r4⟩ := C29_renumbering smp.maxSignal del smp.forbidden use true
  rw [← hmap] at r1 r2 r3 r4
  have hforb : ∀ x ∈ smp.forbidden, x < smp.maxSignal → (BMap.get out.map x).isSome := by
    intro x hx hlt
    rw [r1]
    refine ⟨hlt, fun hd => ?_, fun _ => Or.inl hx⟩
    obtain ⟨s, hs, rfl⟩ := (h2.deleted x).1 hd
    exact (h2.inv.froms s hs).2.1 hx
  refine ⟨out, h1, fun x hx => ?_, hforb, r2, r3, ?_⟩
  · apply r4
    intro y hy
    have := hv.inputs
    exact hforb y (hv.pub y (by omega)) (by omega)
  · have hperm : (all.dedup.filter fun s => decide (smp.noPublicOutputs + 1 ≤ s ∧
        s ≤ smp.noPublicOutputs + smp.noPublicInputs + smp.noPrivateInputs)).Perm
        ((List.range' (smp.noPublicOutputs + smp.noPublicInputs + 1) smp.noPrivateInputs).filter
          fun x => !(BMap.get out.map x).isSome) := by
      rw [List.perm_ext_iff_of_nodup ((List.nodup_dedup _).filter _) ((List.nodup_range').filter _)]
      intro x
      have hin := hv.inputs
      simp only [List.mem_filter, List.mem_dedup, List.mem_range'_1, decide_eq_true_eq, Bool.not_eq_true', h3]
      have hk : (BMap.get out.map x).isSome = true ↔ x < smp.maxSignal ∧ Keep del smp.forbidden use true x := by
        rw [h2.map]
        split
        · rename_i h; simp [h]
        · rename_i h; simp [h]
      rw [Bool.eq_false_iff, ne_eq, hk]
      constructor
      · rintro ⟨ha, hb⟩
        have hnf : x ∉ smp.forbidden := by
          rcases ha with ha | ⟨_, ha⟩
          · obtain ⟨s, hs, rfl⟩ := (h2.deleted x).1 ha
            exact (h2.inv.froms s hs).2.1
          · intro hf
            by_cases hd : x ∈ del
            · obtain ⟨s, hs, rfl⟩ := (h2.deleted x).1 hd
              exact (h2.inv.froms s hs).2.1 hf
            · exact ha ⟨hd, fun hh => hh.2.1 hf⟩
        have : ¬ x ≤ smp.noPublicOutputs + smp.noPublicInputs := fun h => hnf (hv.pub x (by omega))
        refine ⟨by omega, fun hkk => ?_⟩
        rcases ha with ha | ⟨_, ha⟩
        · exact hkk.2.1 ha
        · exact ha hkk.2
      · rintro ⟨ha, hb⟩
        refine ⟨Or.inr ⟨by omega, fun hk' => hb ⟨by omega, hk'⟩⟩, by omega⟩
    rw [h4]
    unfold deletedInputs
    rw [hperm.length_eq]
    have hsum := List.length_eq_length_filter_add (l := List.range' (smp.noPublicOutputs + smp.noPublicInputs + 1) smp.noPrivateInputs)
      (fun x => (BMap.get out.map x).isSome)
    simp only [List.length_range'] at hsum
    omega

example : Valid 13 sample := sample_valid

/-! ## C30 -/

/-- C30: every wire written in an emitted constraint has a witness position; the emitted constraints are tidy, non-empty and mention no
eliminated signal. -/
theorem C30_mapped (hp : p.Prime) (sched : Sched) (hs : sched.Valid) (fuel : List C → Nat) (hfuel : EnoughFuel fuel) (smp : Input)
    (hv : Valid p smp) : ∃ out, simplification sched fuel smp = .ok out ∧
      ∀ c ∈ out.storage, Tidy p c ∧ c ≠ ⟨[], [], []⟩ ∧ ∀ x ∈ wires c, ∃ i, BMap.get out.map x = some i ∧ i < out.map.length := by
  obtain ⟨out, h1, _, h3, _, h5, _⟩ := C29_pipeline hp sched hs fuel hfuel smp hv
  obtain ⟨out', subs, del, use, g1, g2, _⟩ := simplification_spec hp sched hs fuel hfuel smp hv.inputOK hv.prot
  rw [h1] at g1; injection g1 with g1; subst g1
  refine ⟨out, h1, fun c hc => ⟨tidy_of_clean (g2.clean c hc).1, ?_, fun x hx => ?_⟩⟩
  · intro h
    have := (g2.clean c hc).2
    rw [h] at this; cases this
  · have hsome : (BMap.get out.map x).isSome := by
      rw [mem_wires] at hx
      by_cases hx0 : x = 0
      · subst hx0
        exact h3 0 hv.inputOK.zero (by have := hv.inputs; omega)
      · rw [g2.map, if_pos]
        · rfl
        · refine ⟨g2.inv.bounded c hc x hx hx0, fun hd => ?_, fun hu => ?_⟩
          · obtain ⟨s, hs, rfl⟩ := (g2.deleted x).1 hd
            exact g2.inv.gone s hs c hc hx
          · rw [g2.used c hc x hx0 hx] at hu; cases hu.2.2
    obtain ⟨i, hi⟩ := Option.isSome_iff_exists.1 hsome
    exact ⟨i, hi, (h5 i).2 ⟨x, hi⟩⟩

example : (match simplification reversed enough sample with
      | .ok o => decide (o.storage.length = 2 ∧ ∀ c ∈ o.storage, ∀ x ∈ wires c, x ∈ BMap.keys o.map)
      | _ => false) = true := by decide +kernel

end Verif.Props.Simplification
