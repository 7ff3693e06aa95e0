import Verif.FastLemmas

/-! Equality clusters. -/

set_option linter.unusedSectionVars false
set_option linter.unusedSimpArgs false

namespace Verif.Simplification
open Verif.ModArith (Res Fail)
open Verif.Algebra Verif.Linear Verif.Clusters Verif.Props.Algebra

variable {p : Nat}

/-! ### Sorted sets -/

theorem setFold (l : List Nat) : ∀ (m : BMap Unit), BMap.Sorted m →
    BMap.Sorted (l.foldl (fun m k => BMap.insert m k ()) m) ∧
    ∀ x, x ∈ BMap.keys (l.foldl (fun m k => BMap.insert m k ()) m) ↔ x ∈ BMap.keys m ∨ x ∈ l := by
  induction l with
  | nil => intro m hm; exact ⟨hm, by simp⟩
  | cons k l ih =>
    intro m hm
    obtain ⟨i1, i2⟩ := ih (BMap.insert m k ()) (BMap.sorted_insert hm k ())
    refine ⟨i1, fun x => ?_⟩
    rw [List.foldl_cons, i2, BMap.mem_keys_insert hm]
    simp only [List.mem_cons]; tauto

theorem mem_setOf (l : List Nat) (x : Nat) : x ∈ BMap.keys (l.foldl (fun m k => BMap.insert m k ()) []) ↔ x ∈ l := by
  rw [(setFold l [] BMap.sorted_nil).2]; simp

theorem nodup_setOf (l : List Nat) : (BMap.keys (l.foldl (fun m k => BMap.insert m k ()) ([] : BMap Unit))).Nodup :=
  BMap.nodup_keys (setFold l [] BMap.sorted_nil).1

theorem mem_orderedSignals (c : C) (x : Nat) : x ∈ orderedSignals c ↔ x ≠ 0 ∧ c.Occurs x := by
  unfold orderedSignals
  rw [mem_setOf, ← mem_signalSet]
  unfold signalSet
  rw [List.mem_dedup]

theorem minOf_some (l : List Nat) : ∀ (acc : Option Nat) (m : Nat),
    l.foldl (fun acc s => match acc with | none => some s | some m => some (min m s)) acc = some m →
    (acc = some m ∨ m ∈ l) ∧ (∀ x ∈ l, m ≤ x) ∧ ∀ a, acc = some a → m ≤ a := by
  induction l with
  | nil => intro acc m h; simp only [List.foldl_nil] at h; exact ⟨Or.inl h, by simp, fun a ha => by rw [h] at ha; injection ha with ha; omega⟩
  | cons s l ih =>
    intro acc m h
    rw [List.foldl_cons] at h
    obtain ⟨i1, i2, i3⟩ := ih _ m h
    cases acc with
    | none =>
      refine ⟨Or.inr ?_, ?_, by simp⟩
      · rcases i1 with h | h
        · injection h with h; simp [h]
        · simp [h]
      · intro x hx
        rcases List.mem_cons.1 hx with rfl | hx
        · exact i3 _ rfl
        · exact i2 x hx
    | some a =>
      have := i3 _ rfl
      refine ⟨?_, ?_, ?_⟩
      · rcases i1 with h | h
        · injection h with h
          rcases Nat.le_total a s with h' | h'
          · rw [Nat.min_eq_left h'] at h; exact Or.inl (by rw [h])
          · rw [Nat.min_eq_right h'] at h; exact Or.inr (by simp [h])
        · exact Or.inr (by simp [h])
      · intro x hx
        rcases List.mem_cons.1 hx with rfl | hx
        · omega
        · exact i2 x hx
      · intro b hb; injection hb with hb; omega

theorem minOf_spec {l : List Nat} {m : Nat} (h : minOf l = some m) : m ∈ l ∧ ∀ x ∈ l, m ≤ x := by
  obtain ⟨h1, h2, _⟩ := minOf_some l none m h
  rcases h1 with h1 | h1
  · cases h1
  · exact ⟨h1, h2⟩

theorem minOf_none {l : List Nat} (h : minOf l = none) : l = [] := by
  cases l with
  | nil => rfl
  | cons s l =>
    exfalso
    have : ∀ (l : List Nat) (a : Nat), l.foldl (fun acc s => match acc with | none => some s | some m => some (min m s)) (some a) ≠ none := by
      intro l
      induction l with
      | nil => intro a; simp
      | cons x l ih => intro a; exact ih _
    exact this l s h

/-! ### Equality constraints -/

/-- An equality between two signals. -/
structure EqC (p : Nat) (c : C) (s t : Nat) : Prop where
  lt : s < t
  nz : s ≠ 0
  ordered : orderedSignals c = [s, t]
  occurs : ∀ x, c.Occurs x ↔ x = s ∨ x = t
  holds : ∀ ρ : Nat → ZMod p, c.Holds ρ ↔ ρ s = ρ t
  lin : LinClean p c

theorem eqC_of (hp : p.Prime) {c : C} (hcl : Clean p c) (h : c.isEquality p = true) : ∃ s t, EqC p c s t := by
  obtain ⟨s, t, hst, hs, ht, hk, hh⟩ := C18_equality hp c hcl h
  have hab : c.a = [] ∧ c.b = [] := by
    unfold Constraint.isEquality at h
    split at h
    · rename_i h1
      simp only [Bool.and_eq_true] at h1
      exact ⟨List.isEmpty_iff.1 h1.1.1, List.isEmpty_iff.1 h1.1.2⟩
    · cases h
  have hs' : s ≠ 0 := hs
  have ht' : t ≠ 0 := ht
  have hocc : ∀ x, c.Occurs x ↔ x = s ∨ x = t := by
    intro x
    unfold Constraint.Occurs
    rw [hab.1, hab.2, hk]
    simp [CMap.keys]
  have hlin : LinClean p c := ⟨hab.1, hab.2, hcl.wc, hcl.cc, hcl.zc⟩
  have hts : c.takeSignals = [s, t] := by
    unfold Constraint.takeSignals
    rw [hab.1, hab.2, hk]
    simp [CMap.keys, hs', ht']
  rcases Nat.lt_or_gt_of_ne hst with hlt | hlt
  · refine ⟨s, t, hlt, hs', ?_, hocc, hh, hlin⟩
    unfold orderedSignals
    rw [hts]
    have h1 : ¬ t < s := by omega
    have h2 : t ≠ s := by omega
    simp [BMap.insert, h1, h2, BMap.keys]
  · refine ⟨t, s, hlt, ht', ?_, fun x => (hocc x).trans or_comm, fun ρ => (hh ρ).trans eq_comm, hlin⟩
    unfold orderedSignals
    rw [hts]
    have h1 : t < s := hlt
    simp [BMap.insert, h1, BMap.keys]

theorem equalityConstraint_spec (hp : 0 < p) (rh s : Nat) :
    ∃ c, equalityConstraint p rh s = .ok c ∧ Good p c ∧ (∀ ρ : Nat → ZMod p, c.Holds ρ ↔ ρ s = ρ rh) ∧
      ∀ x, c.Occurs x → x = 0 ∨ x = s ∨ x = rh := by
  refine ⟨⟨zeroMap, zeroMap, mulCoefs (-1) (addSymbol s 1 (addSymbol rh (-1) zeroMap (p : Int)) (p : Int)) (p : Int)⟩, rfl, ?_, ?_, ?_⟩
  · have hz : (zeroMap : CMap Nat).WF := validMap_zeroMap.1
    exact ⟨hz, hz, wf_mulCoefs (wf_addSymbol (wf_addSymbol hz _ _ _) _ _ _) _ _, canon_zeroMap hp, canon_zeroMap hp,
      canon_mulCoefs hp _ _⟩
  · intro ρ
    unfold Constraint.Holds
    rw [ev_zeroMap, ev_mulCoefs hp, ev_addSymbol hp, ev_addSymbol hp, ev_zeroMap]
    push_cast
    constructor
    · intro h; linear_combination h
    · intro h; linear_combination h
  · intro x hx
    unfold Constraint.Occurs at hx
    simp only [keys_mulCoefs, mem_keys_addSymbol] at hx
    have hz : ∀ y, y ∈ (zeroMap : CMap Nat).keys → y = 0 := by
      intro y hy
      unfold zeroMap at hy
      rw [mem_keys_initConst] at hy
      simpa [CMap.keys] using hy
    rcases hx with h | h | h | h | h
    · exact Or.inl (hz _ h)
    · exact Or.inl (hz _ h)
    · exact Or.inr (Or.inl h)
    · exact Or.inr (Or.inr h)
    · exact Or.inl (hz _ h)

theorem mapM_spec {α β : Type} (f : α → Res β) (R : α → β → Prop) (l : List α) (h : ∀ a ∈ l, ∃ b, f a = .ok b ∧ R a b) :
    ∃ l', l.mapM f = .ok l' ∧ List.Forall₂ R l l' := by
  induction l with
  | nil => exact ⟨[], rfl, List.Forall₂.nil⟩
  | cons a l ih =>
    obtain ⟨b, h1, h2⟩ := h a (by simp)
    obtain ⟨l', h3, h4⟩ := ih (fun a ha => h a (by simp [ha]))
    refine ⟨b :: l', ?_, List.Forall₂.cons h2 h4⟩
    rw [List.mapM_cons, h1, ok_bind, h3, ok_bind]; rfl

/-- Result of one equality cluster with representative `rh`. -/
structure EqOut (p : Nat) (forb : List Nat) (cs : List C) (subs : List S) (cons : List C) (rh : Nat) : Prop where
  equiv : ∀ ρ : Nat → ZMod p, (∀ c ∈ cs, c.Holds ρ) ↔ (∀ s ∈ subs, s.Holds ρ) ∧ ∀ c ∈ cons, c.Holds ρ
  rhs : ∀ s ∈ subs, s.rhs = [(rh, 1)] ∧ s.frm ≠ rh ∧ s.frm ∉ forb ∧ ∃ c ∈ cs, s.frm ≠ 0 ∧ c.Occurs s.frm
  nodup : (subs.map fun s => s.frm).Nodup
  gone : ∀ c ∈ cs, ∀ x, c.Occurs x → x ∉ forb → x = rh ∨ ∃ s ∈ subs, s.frm = x
  rep : rh ≠ 0 ∧ ∃ c ∈ cs, c.Occurs rh
  repMin : ∀ c ∈ cs, ∀ x, c.Occurs x → (rh ∈ forb ∧ (x ∈ forb → rh ≤ x)) ∨ (x ∉ forb ∧ rh ∉ forb ∧ rh ≤ x)
  good : ∀ c ∈ cons, Good p c
  prot : ∀ c ∈ cons, ∀ x, c.Occurs x → x = 0 ∨ (x ∈ forb ∧ ∃ d ∈ cs, d.Occurs x)
  link : ∀ ρ : Nat → ZMod p, (∀ c ∈ cons, c.Holds ρ) → ∀ c ∈ cs, ∀ x, c.Occurs x → x ∈ forb → ρ x = ρ rh

/-- In a connected set of satisfied equalities all signals are equal. -/
theorem connected_equal {cs : List C} (hcs : ∀ c ∈ cs, ∃ s t, EqC p c s t)
    (hconn : ∀ a ∈ cs, ∀ b ∈ cs,
      Relation.ReflTransGen (fun x y => x ∈ cs ∧ y ∈ cs ∧ ∃ s, s ∈ signalSet x ∧ s ∈ signalSet y) a b)
    {ρ : Nat → ZMod p} (hρ : ∀ c ∈ cs, c.Holds ρ) {a b : C} (ha : a ∈ cs) (hb : b ∈ cs) {x y : Nat} (hx : a.Occurs x)
    (hy : b.Occurs y) : ρ x = ρ y := by
  have one : ∀ c ∈ cs, ∀ x y, c.Occurs x → c.Occurs y → ρ x = ρ y := by
    intro c hc x y hx hy
    obtain ⟨s, t, h⟩ := hcs c hc
    have := (h.holds ρ).1 (hρ c hc)
    rcases (h.occurs x).1 hx with rfl | rfl <;> rcases (h.occurs y).1 hy with rfl | rfl
    · rfl
    · exact this
    · exact this.symm
    · rfl
  have := hconn a ha b hb
  clear hb
  induction this generalizing y with
  | refl => exact one a ha x y hx hy
  | tail _ hs ih =>
    obtain ⟨h1, h2, s, h3, h4⟩ := hs
    have e1 := ih ((mem_signalSet _ s).1 h3).2
    exact e1.trans (one _ h2 s y ((mem_signalSet _ s).1 h4).2 hy)

theorem eqCluster_spec (hp : p.Prime) (ord : List Nat → List Nat) (hord : ∀ l, (ord l).Perm l) (forb : List Nat)
    (cs : List C) (hne : cs ≠ []) (hcs : ∀ c ∈ cs, ∃ s t, EqC p c s t)
    (hconn : ∀ a ∈ cs, ∀ b ∈ cs,
      Relation.ReflTransGen (fun x y => x ∈ cs ∧ y ∈ cs ∧ ∃ s, s ∈ signalSet x ∧ s ∈ signalSet y) a b) :
    ∃ subs cons rh, eqCluster ord forb p cs = .ok (subs, cons) ∧ EqOut p forb cs subs cons rh := by
  match hcs' : cs with
  | [] => exact absurd rfl hne
  | [c] =>
    obtain ⟨s, t, h⟩ := hcs c (by simp)
    have ht0 : t ≠ 0 := by have := h.lt; omega
    have hlt := h.lt
    by_cases fs : s ∈ forb <;> by_cases ft : t ∈ forb
    · refine ⟨[], [c], s, by simp [eqCluster, h.ordered, fs, ft], ⟨fun ρ => by simp, by simp, by simp, ?_, ?_, ?_, ?_, ?_, ?_⟩⟩
      · intro d hd x hx hxf
        simp only [List.mem_singleton] at hd; subst hd
        rcases (h.occurs x).1 hx with rfl | rfl
        · exact absurd fs hxf
        · exact absurd ft hxf
      · exact ⟨h.nz, c, by simp, (h.occurs s).2 (Or.inl rfl)⟩
      · intro d hd x hx
        simp only [List.mem_singleton] at hd; subst hd
        rcases (h.occurs x).1 hx with rfl | rfl
        · exact Or.inl ⟨fs, fun _ => le_rfl⟩
        · exact Or.inl ⟨fs, fun _ => hlt.le⟩
      · intro d hd
        simp only [List.mem_singleton] at hd; subst hd
        exact (LinClean.clean h.lin).good
      · intro d hd x hx
        simp only [List.mem_singleton] at hd; subst hd
        refine Or.inr ⟨?_, d, by simp, hx⟩
        rcases (h.occurs x).1 hx with rfl | rfl
        · exact fs
        · exact ft
      · intro ρ hρ d hd x hx _
        simp only [List.mem_singleton] at hd; subst hd
        have := (h.holds ρ).1 (hρ d (by simp))
        rcases (h.occurs x).1 hx with rfl | rfl
        · rfl
        · exact this.symm
    · refine ⟨[⟨t, [(s, 1)]⟩], [], s, by simp [eqCluster, h.ordered, fs, ft, newSub, Substitution.new, ok_bind],
        ⟨fun ρ => ?_, ?_, by simp, ?_, ?_, ?_, by simp, by simp, ?_⟩⟩
      · simp only [List.mem_singleton, forall_eq, List.not_mem_nil, false_implies, implies_true, and_true]
        rw [h.holds]
        simp only [Substitution.Holds, ev_cons, ev_nil]
        push_cast; rw [one_mul, add_zero]; exact eq_comm
      · intro u hu
        simp only [List.mem_singleton] at hu; subst hu
        exact ⟨rfl, (by show t ≠ s; omega), ft, c, by simp, ht0, (h.occurs t).2 (Or.inr rfl)⟩
      · intro d hd x hx hxf
        simp only [List.mem_singleton] at hd; subst hd
        rcases (h.occurs x).1 hx with rfl | rfl
        · exact Or.inl rfl
        · exact Or.inr ⟨_, List.mem_singleton.2 rfl, rfl⟩
      · exact ⟨h.nz, c, by simp, (h.occurs s).2 (Or.inl rfl)⟩
      · intro d hd x hx
        simp only [List.mem_singleton] at hd; subst hd
        rcases (h.occurs x).1 hx with rfl | rfl
        · exact Or.inl ⟨fs, fun _ => le_rfl⟩
        · exact Or.inl ⟨fs, fun _ => hlt.le⟩
      · intro ρ hρ d hd x hx hxf
        simp only [List.mem_singleton] at hd; subst hd
        rcases (h.occurs x).1 hx with rfl | rfl
        · rfl
        · exact absurd hxf ft
    · refine ⟨[⟨s, [(t, 1)]⟩], [], t, by simp [eqCluster, h.ordered, fs, ft, newSub, Substitution.new, ok_bind],
        ⟨fun ρ => ?_, ?_, by simp, ?_, ?_, ?_, by simp, by simp, ?_⟩⟩
      · simp only [List.mem_singleton, forall_eq, List.not_mem_nil, false_implies, implies_true, and_true]
        rw [h.holds]
        simp only [Substitution.Holds, ev_cons, ev_nil]
        push_cast; rw [one_mul, add_zero]
      · intro u hu
        simp only [List.mem_singleton] at hu; subst hu
        exact ⟨rfl, (by show s ≠ t; omega), fs, c, by simp, h.nz, (h.occurs s).2 (Or.inl rfl)⟩
      · intro d hd x hx hxf
        simp only [List.mem_singleton] at hd; subst hd
        rcases (h.occurs x).1 hx with rfl | rfl
        · exact Or.inr ⟨_, List.mem_singleton.2 rfl, rfl⟩
        · exact Or.inl rfl
      · exact ⟨ht0, c, by simp, (h.occurs t).2 (Or.inr rfl)⟩
      · intro d hd x hx
        simp only [List.mem_singleton] at hd; subst hd
        refine Or.inl ⟨ft, fun hxf => ?_⟩
        rcases (h.occurs x).1 hx with rfl | rfl
        · exact absurd hxf fs
        · exact le_rfl
      · intro ρ hρ d hd x hx hxf
        simp only [List.mem_singleton] at hd; subst hd
        rcases (h.occurs x).1 hx with rfl | rfl
        · exact absurd hxf fs
        · rfl
    · have hns : ¬ s > t := by omega
      refine ⟨[⟨t, [(s, 1)]⟩], [], s, by simp [eqCluster, h.ordered, fs, ft, newSub, Substitution.new, ok_bind, hns],
        ⟨fun ρ => ?_, ?_, by simp, ?_, ?_, ?_, by simp, by simp, ?_⟩⟩
      · simp only [List.mem_singleton, forall_eq, List.not_mem_nil, false_implies, implies_true, and_true]
        rw [h.holds]
        simp only [Substitution.Holds, ev_cons, ev_nil]
        push_cast; rw [one_mul, add_zero]; exact eq_comm
      · intro u hu
        simp only [List.mem_singleton] at hu; subst hu
        exact ⟨rfl, (by show t ≠ s; omega), ft, c, by simp, ht0, (h.occurs t).2 (Or.inr rfl)⟩
      · intro d hd x hx hxf
        simp only [List.mem_singleton] at hd; subst hd
        rcases (h.occurs x).1 hx with rfl | rfl
        · exact Or.inl rfl
        · exact Or.inr ⟨_, List.mem_singleton.2 rfl, rfl⟩
      · exact ⟨h.nz, c, by simp, (h.occurs s).2 (Or.inl rfl)⟩
      · intro d hd x hx
        simp only [List.mem_singleton] at hd; subst hd
        rcases (h.occurs x).1 hx with rfl | rfl
        · exact Or.inr ⟨fs, fs, le_rfl⟩
        · exact Or.inr ⟨ft, fs, hlt.le⟩
      · intro ρ hρ d hd x hx hxf
        simp only [List.mem_singleton] at hd; subst hd
        rcases (h.occurs x).1 hx with rfl | rfl
        · exact absurd hxf fs
        · exact absurd hxf ft
  | c0 :: c1 :: rest =>
    rw [← hcs'] at hcs hconn hne ⊢
    have hmemS : ∀ x, x ∈ cs.flatMap orderedSignals ↔ ∃ c ∈ cs, c.Occurs x := by
      intro x
      rw [List.mem_flatMap]
      constructor
      · rintro ⟨c, hc, hx⟩; exact ⟨c, hc, ((mem_orderedSignals c x).1 hx).2⟩
      · rintro ⟨c, hc, hx⟩
        refine ⟨c, hc, (mem_orderedSignals c x).2 ⟨?_, hx⟩⟩
        obtain ⟨s, t, h⟩ := hcs c hc
        have := h.nz; have := h.lt
        rcases (h.occurs x).1 hx with rfl | rfl <;> omega
    have hnz : ∀ x, x ∈ cs.flatMap orderedSignals → x ≠ 0 := by
      intro x hx
      obtain ⟨c, hc, hx⟩ := List.mem_flatMap.1 hx
      exact ((mem_orderedSignals c x).1 hx).1
    obtain ⟨sigs, hsigs⟩ : ∃ l, l = cs.flatMap orderedSignals := ⟨_, rfl⟩
    -- the representative
    have hrep : ∃ rh remains remove, (match minOf (sigs.filter fun s => forb.contains s), minOf (sigs.filter fun s => !forb.contains s) with
        | some s, _ => (Except.ok (s, (BMap.keys ((sigs.filter fun s => forb.contains s).foldl (fun m k => BMap.insert m k ()) ([] : BMap Unit))).filter
            (fun x => decide (x ≠ s)), (sigs.filter fun s => !forb.contains s).dedup) : Res (Nat × List Nat × List Nat))
        | none, some s => .ok (s, BMap.keys ((sigs.filter fun s => forb.contains s).foldl (fun m k => BMap.insert m k ()) ([] : BMap Unit)),
            (sigs.filter fun s => !forb.contains s).dedup.filter fun x => decide (x ≠ s))
        | none, none => .error .panic) = .ok (rh, remains, remove) ∧ rh ∈ sigs ∧
        (∀ x, x ∈ remains ↔ x ∈ sigs ∧ x ∈ forb ∧ x ≠ rh) ∧ (∀ x, x ∈ remove ↔ x ∈ sigs ∧ x ∉ forb ∧ x ≠ rh) ∧ remove.Nodup ∧
        ∀ x ∈ sigs, (rh ∈ forb ∧ (x ∈ forb → rh ≤ x)) ∨ (x ∉ forb ∧ rh ∉ forb ∧ rh ≤ x) := by
      cases hk : minOf (sigs.filter fun s => forb.contains s) with
      | some s =>
        obtain ⟨m1, m2⟩ := minOf_spec hk
        rw [List.mem_filter] at m1
        have hsf : s ∈ forb := by simpa using m1.2
        refine ⟨s, _, _, rfl, m1.1, ?_, ?_, List.nodup_dedup _, ?_⟩
        · intro x
          rw [List.mem_filter, mem_setOf, List.mem_filter]
          simp [and_assoc]
        · intro x
          rw [List.mem_dedup, List.mem_filter]
          simp only [Bool.not_eq_true', List.contains_iff_mem, Bool.eq_false_iff, ne_eq]
          constructor
          · rintro ⟨a, b⟩; exact ⟨a, b, by rintro rfl; exact b hsf⟩
          · rintro ⟨a, b, _⟩; exact ⟨a, b⟩
        · intro x hx
          exact Or.inl ⟨hsf, fun hxf => m2 x (List.mem_filter.2 ⟨hx, by simpa using hxf⟩)⟩
      | none =>
        have hnil := minOf_none hk
        have hnof : ∀ x ∈ sigs, x ∉ forb := by
          intro x hx hxf
          have : x ∈ sigs.filter fun s => forb.contains s := List.mem_filter.2 ⟨hx, by simpa using hxf⟩
          rw [hnil] at this; simp at this
        cases hg : minOf (sigs.filter fun s => !forb.contains s) with
        | none =>
          exfalso
          have h2 := minOf_none hg
          obtain ⟨s, t, h⟩ := hcs c0 (by rw [hcs']; simp)
          have hs : s ∈ sigs := by
            rw [hsigs, hmemS]; exact ⟨c0, by rw [hcs']; simp, (h.occurs s).2 (Or.inl rfl)⟩
          have : s ∈ sigs.filter fun s => !forb.contains s := List.mem_filter.2 ⟨hs, by simpa using hnof s hs⟩
          rw [h2] at this; simp at this
        | some s =>
          obtain ⟨m1, m2⟩ := minOf_spec hg
          rw [List.mem_filter] at m1
          refine ⟨s, _, _, rfl, m1.1, ?_, ?_, (List.nodup_dedup _).filter _, ?_⟩
          · intro x
            rw [mem_setOf, hnil]
            simp only [List.not_mem_nil, false_iff, not_and]
            intro hx hxf; exact absurd hxf (hnof x hx)
          · intro x
            rw [List.mem_filter, List.mem_dedup, List.mem_filter]
            simp [and_assoc]
          · intro x hx
            exact Or.inr ⟨hnof x hx, hnof s m1.1, m2 x (List.mem_filter.2 ⟨hx, by simpa using hnof x hx⟩)⟩
    obtain ⟨rh, remains, remove, hr, hrh, hremains, hremove, hnodup, hmin⟩ := hrep
    obtain ⟨cons, hcons, hconsR⟩ := mapM_spec (equalityConstraint (p : Int) rh)
      (fun s c => Good p c ∧ (∀ ρ : Nat → ZMod p, c.Holds ρ ↔ ρ s = ρ rh) ∧ ∀ x, c.Occurs x → x = 0 ∨ x = s ∨ x = rh)
      remains (fun s _ => equalityConstraint_spec hp.pos rh s)
    obtain ⟨subs, hsubs, hsubsR⟩ := mapM_spec (fun s => newSub s (.signal rh))
      (fun s (u : S) => u = ⟨s, [(rh, 1)]⟩) (ord remove) (fun s _ => ⟨_, rfl, rfl⟩)
    have hperm := hord remove
    have hsubs_mem : ∀ u, u ∈ subs ↔ ∃ s, s ∈ remove ∧ u = ⟨s, [(rh, 1)]⟩ := by
      intro u
      constructor
      · intro hu
        obtain ⟨s, hs, h⟩ := forall₂_exists_left hsubsR u hu
        exact ⟨s, hperm.mem_iff.1 hs, h⟩
      · rintro ⟨s, hs, rfl⟩
        obtain ⟨u, hu, h⟩ := forall₂_exists_right hsubsR s (hperm.mem_iff.2 hs)
        rw [← h]; exact hu
    have hfrm : subs.map (fun u => u.frm) = ord remove := by
      have : ∀ (l : List Nat) (us : List S), List.Forall₂ (fun s (u : S) => u = ⟨s, [(rh, 1)]⟩) l us →
          us.map (fun u => u.frm) = l := by
        intro l us h
        induction h with
        | nil => rfl
        | cons h _ ih => rw [List.map_cons, h, ih]
      exact this _ _ hsubsR
    have hhold : ∀ (ρ : Nat → ZMod p) (s : Nat), Substitution.Holds ρ (⟨s, [(rh, 1)]⟩ : S) ↔ ρ s = ρ rh := by
      intro ρ s
      simp only [Substitution.Holds, ev_cons, ev_nil]
      push_cast; rw [one_mul, add_zero]
    have hlink : ∀ ρ : Nat → ZMod p, (∀ c ∈ cons, c.Holds ρ) → ∀ x ∈ remains, ρ x = ρ rh := by
      intro ρ hρ x hx
      obtain ⟨c, hc, h⟩ := forall₂_exists_right hconsR x hx
      exact (h.2.1 ρ).1 (hρ c hc)
    refine ⟨subs, cons, rh, ?_, ⟨?_, ?_, ?_, ?_, ?_, ?_, ?_, ?_, ?_⟩⟩
    · have : eqCluster ord forb p cs = (do
          let (rh, remains, remove) ← (match minOf (sigs.filter fun s => forb.contains s), minOf (sigs.filter fun s => !forb.contains s) with
            | some s, _ => (Except.ok (s, (BMap.keys ((sigs.filter fun s => forb.contains s).foldl (fun m k => BMap.insert m k ()) ([] : BMap Unit))).filter
                (fun x => decide (x ≠ s)), (sigs.filter fun s => !forb.contains s).dedup) : Res (Nat × List Nat × List Nat))
            | none, some s => .ok (s, BMap.keys ((sigs.filter fun s => forb.contains s).foldl (fun m k => BMap.insert m k ()) ([] : BMap Unit)),
                (sigs.filter fun s => !forb.contains s).dedup.filter fun x => decide (x ≠ s))
            | none, none => .error .panic)
          let cons ← remains.mapM (equalityConstraint (p : Int) rh)
          let subs ← (ord remove).mapM fun s => newSub s (.signal rh)
          .ok (subs, cons)) := by
        rw [hcs', hsigs, hcs']; rfl
      rw [this, hr, ok_bind]
      simp only [hcons, ok_bind, hsubs]
    · intro ρ
      constructor
      · intro h
        have heq : ∀ x ∈ sigs, ρ x = ρ rh := by
          intro x hx
          rw [hsigs, hmemS] at hx hrh
          obtain ⟨a, ha, hx⟩ := hx
          obtain ⟨b, hb, hy⟩ := hrh
          exact connected_equal hcs hconn h ha hb hx hy
        refine ⟨fun u hu => ?_, fun c hc => ?_⟩
        · obtain ⟨s, hs, rfl⟩ := (hsubs_mem u).1 hu
          rw [hhold]
          exact heq s ((hremove s).1 hs).1
        · obtain ⟨s, hs, h⟩ := forall₂_exists_left hconsR c hc
          rw [h.2.1 ρ]
          exact heq s ((hremains s).1 hs).1
      · rintro ⟨h1, h2⟩ c hc
        have heq : ∀ x ∈ sigs, ρ x = ρ rh := by
          intro x hx
          by_cases hxr : x = rh
          · rw [hxr]
          · by_cases hxf : x ∈ forb
            · exact hlink ρ h2 x ((hremains x).2 ⟨hx, hxf, hxr⟩)
            · have := h1 _ ((hsubs_mem _).2 ⟨x, (hremove x).2 ⟨hx, hxf, hxr⟩, rfl⟩)
              rwa [hhold] at this
        obtain ⟨s, t, h⟩ := hcs c hc
        rw [h.holds]
        have hs : s ∈ sigs := by rw [hsigs, hmemS]; exact ⟨c, hc, (h.occurs s).2 (Or.inl rfl)⟩
        have ht : t ∈ sigs := by rw [hsigs, hmemS]; exact ⟨c, hc, (h.occurs t).2 (Or.inr rfl)⟩
        rw [heq s hs, heq t ht]
    · intro u hu
      obtain ⟨s, hs, rfl⟩ := (hsubs_mem u).1 hu
      obtain ⟨a, b, d⟩ := (hremove s).1 hs
      refine ⟨rfl, d, b, ?_⟩
      rw [hsigs] at a
      obtain ⟨c, hc, hx⟩ := (hmemS s).1 a
      exact ⟨c, hc, hnz s a, hx⟩
    · rw [hfrm]; exact hperm.nodup_iff.2 hnodup
    · intro c hc x hx hxf
      by_cases hxr : x = rh
      · exact Or.inl hxr
      · have hxs : x ∈ sigs := by rw [hsigs, hmemS]; exact ⟨c, hc, hx⟩
        exact Or.inr ⟨_, (hsubs_mem _).2 ⟨x, (hremove x).2 ⟨hxs, hxf, hxr⟩, rfl⟩, rfl⟩
    · rw [hsigs] at hrh
      exact ⟨hnz rh hrh, (hmemS rh).1 hrh⟩
    · intro c hc x hx
      exact hmin x (by rw [hsigs, hmemS]; exact ⟨c, hc, hx⟩)
    · intro c hc
      obtain ⟨s, hs, h⟩ := forall₂_exists_left hconsR c hc
      exact h.1
    · intro c hc x hx
      obtain ⟨s, hs, h⟩ := forall₂_exists_left hconsR c hc
      obtain ⟨a, b, d⟩ := (hremains s).1 hs
      have hrf : rh ∈ forb := by
        rcases hmin s a with h | h
        · exact h.1
        · exact absurd b h.1
      rw [hsigs] at hrh a
      rcases h.2.2 x hx with h | rfl | rfl
      · exact Or.inl h
      · exact Or.inr ⟨b, (hmemS _).1 a⟩
      · exact Or.inr ⟨hrf, (hmemS _).1 hrh⟩
    · intro ρ hρ c hc x hx hxf
      by_cases hxr : x = rh
      · rw [hxr]
      · have hxs : x ∈ sigs := by rw [hsigs, hmemS]; exact ⟨c, hc, hx⟩
        exact hlink ρ hρ x ((hremains x).2 ⟨hxs, hxf, hxr⟩)

end Verif.Simplification
