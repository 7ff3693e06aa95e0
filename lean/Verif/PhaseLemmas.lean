import Verif.EqLemmas
import Verif.SimplifyLemmas

/-! The equality phase and the linear phase as a whole. -/

set_option linter.unusedSectionVars false
set_option linter.unusedSimpArgs false

namespace Verif.Simplification
open Verif.ModArith (Res Fail)
open Verif.Algebra Verif.Linear Verif.Clusters Verif.Props.Algebra

variable {p : Nat}

/-- A list of constraints solved into substitutions and remaining constraints. -/
structure Solved (p : Nat) (forb : List Nat) (cs : List C) (subs : List S) (cons : List C) : Prop where
  equiv : ∀ ρ : Nat → ZMod p, ρ 0 = 1 → ((∀ c ∈ cs, c.Holds ρ) ↔ (∀ s ∈ subs, s.Holds ρ) ∧ ∀ c ∈ cons, c.Holds ρ)
  froms : ∀ s ∈ subs, s.frm ≠ 0 ∧ s.frm ∉ forb ∧ ∃ c ∈ cs, c.Occurs s.frm
  nodup : (subs.map fun s => s.frm).Nodup
  disjoint : ∀ s ∈ subs, ∀ t ∈ subs, s.frm ∉ t.rhs.keys
  rhs : ∀ s ∈ subs, ∀ x ∈ s.rhs.keys, x = 0 ∨ ∃ c ∈ cs, c.Occurs x
  good : ∀ c ∈ cons, Good p c
  prot : ∀ c ∈ cons, ∀ x, c.Occurs x → x = 0 ∨ (x ∈ forb ∧ ∃ d ∈ cs, d.Occurs x)

theorem solved_nil (forb : List Nat) : Solved p forb [] [] [] :=
  ⟨by simp, by simp, by simp, by simp, by simp, by simp, by simp⟩

theorem Solved.append {forb : List Nat} {A B : List C} {s1 s2 : List S} {c1 c2 : List C} (hA : Solved p forb A s1 c1)
    (hB : Solved p forb B s2 c2) (hd : ∀ a ∈ A, ∀ b ∈ B, ∀ s, s ∈ signalSet a → s ∉ signalSet b) :
    Solved p forb (A ++ B) (s1 ++ s2) (c1 ++ c2) := by
  have hsep : ∀ x, x ≠ 0 → (∃ a ∈ A, a.Occurs x) → (∃ b ∈ B, b.Occurs x) → False := by
    rintro x hx ⟨a, ha, h1⟩ ⟨b, hb, h2⟩
    exact hd a ha b hb x ((mem_signalSet a x).2 ⟨hx, h1⟩) ((mem_signalSet b x).2 ⟨hx, h2⟩)
  refine ⟨fun ρ hρ => ?_, fun s hs => ?_, ?_, fun s hs t ht => ?_, fun s hs x hx => ?_, fun c hc => ?_, fun c hc x hx => ?_⟩
  · simp only [List.forall_mem_append]
    rw [hA.equiv ρ hρ, hB.equiv ρ hρ]; tauto
  · rcases List.mem_append.1 hs with h | h
    · obtain ⟨a, b, c, hc, hx⟩ := hA.froms s h
      exact ⟨a, b, c, by simp [hc], hx⟩
    · obtain ⟨a, b, c, hc, hx⟩ := hB.froms s h
      exact ⟨a, b, c, by simp [hc], hx⟩
  · rw [List.map_append, List.nodup_append]
    refine ⟨hA.nodup, hB.nodup, ?_⟩
    intro a ha b hb hab
    obtain ⟨s, hs, rfl⟩ := List.mem_map.1 ha
    obtain ⟨t, ht, rfl⟩ := List.mem_map.1 hb
    obtain ⟨x1, _, x2⟩ := hA.froms s hs
    obtain ⟨_, _, x3⟩ := hB.froms t ht
    rw [← hab] at x3
    exact hsep _ x1 x2 x3
  · intro hx
    rcases List.mem_append.1 hs with h | h <;> rcases List.mem_append.1 ht with h' | h'
    · exact hA.disjoint s h t h' hx
    · obtain ⟨x1, _, x2⟩ := hA.froms s h
      rcases hB.rhs t h' _ hx with h0 | h0
      · exact x1 h0
      · exact hsep _ x1 x2 h0
    · obtain ⟨x1, _, x2⟩ := hB.froms s h
      rcases hA.rhs t h' _ hx with h0 | h0
      · exact x1 h0
      · exact hsep _ x1 h0 x2
    · exact hB.disjoint s h t h' hx
  · rcases List.mem_append.1 hs with h | h
    · rcases hA.rhs s h x hx with h0 | ⟨c, hc, hx⟩
      · exact Or.inl h0
      · exact Or.inr ⟨c, by simp [hc], hx⟩
    · rcases hB.rhs s h x hx with h0 | ⟨c, hc, hx⟩
      · exact Or.inl h0
      · exact Or.inr ⟨c, by simp [hc], hx⟩
  · rcases List.mem_append.1 hc with h | h
    · exact hA.good c h
    · exact hB.good c h
  · rcases List.mem_append.1 hc with h | h
    · rcases hA.prot c h x hx with h0 | ⟨h0, c, hc, hx⟩
      · exact Or.inl h0
      · exact Or.inr ⟨h0, c, by simp [hc], hx⟩
    · rcases hB.prot c h x hx with h0 | ⟨h0, c, hc, hx⟩
      · exact Or.inl h0
      · exact Or.inr ⟨h0, c, by simp [hc], hx⟩

theorem solved_flatten {forb : List Nat} {blocks : List (List C)} {outs : List (List S × List C)}
    (h : List.Forall₂ (fun B r => Solved p forb B r.1 r.2) blocks outs)
    (hd : blocks.Pairwise fun A B => ∀ a ∈ A, ∀ b ∈ B, ∀ s, s ∈ signalSet a → s ∉ signalSet b) :
    Solved p forb blocks.flatten (outs.flatMap Prod.fst) (outs.flatMap Prod.snd) := by
  induction h with
  | nil => exact solved_nil forb
  | cons h1 _ ih =>
    rw [List.pairwise_cons] at hd
    have := h1.append (ih hd.2) (by
      intro a ha b hb
      obtain ⟨B, hB, hb⟩ := List.mem_flatten.1 hb
      exact hd.1 B hB a ha b hb)
    simpa using this

theorem Solved.perm {forb : List Nat} {cs cs' : List C} {subs subs' : List S} {cons cons' : List C}
    (h : Solved p forb cs subs cons) (h1 : subs'.Perm subs) (h2 : cons'.Perm cons)
    (h3 : ∀ ρ : Nat → ZMod p, (∀ c ∈ cs', c.Holds ρ) ↔ ∀ c ∈ cs, c.Holds ρ) (h4 : ∀ c ∈ cs, c ∈ cs') :
    Solved p forb cs' subs' cons' := by
  refine ⟨fun ρ hρ => ?_, fun s hs => ?_, ?_, fun s hs t ht => ?_, fun s hs x hx => ?_, fun c hc => ?_, fun c hc x hx => ?_⟩
  · rw [h3, h.equiv ρ hρ]
    simp only [h1.mem_iff, h2.mem_iff]
  · obtain ⟨a, b, c, hc, hx⟩ := h.froms s (h1.mem_iff.1 hs)
    exact ⟨a, b, c, h4 c hc, hx⟩
  · exact (h1.map _).nodup_iff.2 h.nodup
  · exact h.disjoint s (h1.mem_iff.1 hs) t (h1.mem_iff.1 ht)
  · rcases h.rhs s (h1.mem_iff.1 hs) x hx with h0 | ⟨c, hc, hx⟩
    · exact Or.inl h0
    · exact Or.inr ⟨c, h4 c hc, hx⟩
  · exact h.good c (h2.mem_iff.1 hc)
  · rcases h.prot c (h2.mem_iff.1 hc) x hx with h0 | ⟨h0, c, hc, hx⟩
    · exact Or.inl h0
    · exact Or.inr ⟨h0, c, h4 c hc, hx⟩

/-! ### Jobs and orders -/

theorem runClusters_spec {α : Type} (job : Nat → List C → Res α) (R : List C → α → Prop) (ks : List Cluster) :
    ∀ (n : Nat), (∀ n, ∀ k ∈ ks, ∃ r, job n k.constraints = .ok r ∧ R k.constraints r) →
    ∃ rs, runClusters job n ks = .ok rs ∧ List.Forall₂ R (ks.map Cluster.constraints) rs := by
  induction ks with
  | nil => intro n _; exact ⟨[], rfl, List.Forall₂.nil⟩
  | cons k ks ih =>
    intro n h
    obtain ⟨r, h1, h2⟩ := h n k (by simp)
    obtain ⟨rs, h3, h4⟩ := ih (n + 1) (fun n k hk => h n k (by simp [hk]))
    refine ⟨r :: rs, ?_, List.Forall₂.cons h2 h4⟩
    unfold runClusters
    rw [h1, ok_bind, h3, ok_bind]

theorem reorder_perm {α : Type} {order : List Nat} {l : List α} (h : order.Perm (List.range l.length)) :
    (reorder order l).Perm l := by
  unfold reorder
  have h1 := h.filterMap (fun i => l[i]?)
  have h2 : (List.range l.length).filterMap (fun i => l[i]?) = l := by
    clear h1 h
    induction l using List.reverseRecOn with
    | nil => rfl
    | append_singleton l a ih =>
      rw [List.length_append, List.length_singleton, List.range_succ, List.filterMap_append]
      have e1 : (List.range l.length).filterMap (fun i => (l ++ [a])[i]?) = (List.range l.length).filterMap (fun i => l[i]?) := by
        apply List.filterMap_congr
        intro i hi
        rw [List.getElem?_append_left (List.mem_range.1 hi)]
      rw [e1, ih]
      simp
  rw [h2] at h1; exact h1

theorem flatMap_split {α β : Type} (l : List α) (q : α → Bool) (f : α → List β) :
    ((l.filter q ++ l.filter fun a => !q a).flatMap f).Perm (l.flatMap f) :=
  (List.filter_append_perm q l).flatMap_right f

theorem empty_holds (c : C) (h : c.isEmpty = true) (ρ : Nat → ZMod p) : c.Holds ρ := by
  obtain ⟨a, b, c⟩ := c
  cases a <;> cases b <;> cases c <;> simp [Constraint.isEmpty] at h
  simp [Constraint.Holds, ev_nil]

theorem partition_holds {cs : List C} {blocks : List (List C)} (h : Partition cs blocks) (ρ : Nat → ZMod p) :
    (∀ c ∈ cs, c.Holds ρ) ↔ ∀ c ∈ blocks.flatten, c.Holds ρ := by
  simp only [h.perm.mem_iff, List.mem_filter]
  constructor
  · intro h c hc; exact h c hc.1
  · intro h c hc
    cases he : c.isEmpty with
    | true => exact empty_holds c he ρ
    | false => exact h c ⟨hc, by simp [he]⟩

theorem partition_mem {cs : List C} {blocks : List (List C)} (h : Partition cs blocks) (c : C) (hc : c ∈ blocks.flatten) :
    c ∈ cs := (List.mem_filter.1 (h.perm.mem_iff.1 hc)).1

/-! ### The equality phase -/

/-- Solved, with renamings only: the extra facts of the equality phase. -/
structure Renames (forb : List Nat) (subs : List S) : Prop where
  rhs : ∀ s ∈ subs, ∃ rh, rh ≠ 0 ∧ s.rhs = [(rh, 1)]

theorem EqOut.solved {forb : List Nat} {cs : List C} {subs : List S} {cons : List C} {rh : Nat}
    (h : EqOut p forb cs subs cons rh) : Solved p forb cs subs cons := by
  refine ⟨fun ρ _ => h.equiv ρ, fun s hs => ?_, h.nodup, fun s hs t ht hx => ?_, fun s hs x hx => ?_, h.good, h.prot⟩
  · obtain ⟨_, _, h3, c, hc, h4, h5⟩ := h.rhs s hs
    exact ⟨h4, h3, c, hc, h5⟩
  · obtain ⟨h1, _⟩ := h.rhs t ht
    obtain ⟨_, h2, _⟩ := h.rhs s hs
    rw [h1] at hx
    simp [CMap.keys] at hx
    exact h2 hx
  · obtain ⟨h1, _⟩ := h.rhs s hs
    rw [h1] at hx
    simp [CMap.keys] at hx
    subst hx
    exact Or.inr h.rep.2

theorem eqSimplification_clusters (hp : p.Prime) (sched : Sched) (hs : sched.Valid) (eqs : List C) (forb : List Nat)
    (maxSignal : Nat) (hE : ∀ c ∈ eqs, ∃ s t, EqC p c s t) (hb : ∀ c ∈ eqs, ∀ x, c.Occurs x → x < maxSignal) :
    ∃ (blocks : List (List C)) (outs : List (List S × List C)) (subs : List S),
      eqSimplification sched eqs forb maxSignal p = .ok (subs, outs.flatMap Prod.snd) ∧ Partition eqs blocks ∧
      List.Forall₂ (fun B (r : List S × List C) => ∃ rh, EqOut p forb B r.1 r.2 rh) blocks outs ∧
      subs.Perm (outs.flatMap Prod.fst) := by
  obtain ⟨clusters, h1, h2⟩ := buildClusters_spec (sched.sets 0) (hs.sets 0) eqs maxSignal
    (fun c hc x hx => hb c hc x ((mem_signalSet c x).1 hx).2)
  obtain ⟨results, h3, h4⟩ := runClusters_spec (fun id cs => do
      Except.ok (cs.length, ← eqCluster (sched.sets 0 (eqs.length + id)) forb p cs))
    (fun cs (r : Nat × List S × List C) => r.1 = cs.length ∧ ∃ rh, EqOut p forb cs r.2.1 r.2.2 rh) clusters 0 (by
      intro n k hk
      have hk' : k.constraints ∈ clusters.map Cluster.constraints := List.mem_map.2 ⟨k, hk, rfl⟩
      obtain ⟨subs, cons, rh, f1, f2⟩ := eqCluster_spec hp (sched.sets 0 (eqs.length + n)) (hs.sets 0 _) forb
        k.constraints (h2.nonempty _ hk')
        (fun c hc => hE c (partition_mem h2 c (List.mem_flatten.2 ⟨_, hk', hc⟩))) (h2.connected _ hk')
      exact ⟨(k.constraints.length, subs, cons), by simp only [f1, ok_bind], rfl, rh, f2⟩)
  refine ⟨clusters.map Cluster.constraints, results.map Prod.snd,
    (results.filter (fun r => decide (r.1 = 1)) ++ reorder (sched.arrive 0 (results.filter fun r => !decide (r.1 = 1)).length)
      (results.filter fun r => !decide (r.1 = 1))).flatMap (fun r => r.2.1), ?_, h2, ?_, ?_⟩
  · unfold eqSimplification
    simp only [h1, ok_bind, h3]
    rw [List.flatMap_map]
  · rw [List.forall₂_map_right_iff]
    exact h4.imp fun _ _ h => h.2
  · rw [List.flatMap_map]
    refine List.Perm.trans ?_ (flatMap_split results (fun r => decide (r.1 = 1)) fun r => r.2.1)
    exact ((reorder_perm (hs.arrive 0 _)).append_left _).flatMap_right _

theorem eqSimplification_spec (hp : p.Prime) (sched : Sched) (hs : sched.Valid) (eqs : List C) (forb : List Nat)
    (maxSignal : Nat) (hE : ∀ c ∈ eqs, ∃ s t, EqC p c s t) (hb : ∀ c ∈ eqs, ∀ x, c.Occurs x → x < maxSignal) :
    ∃ subs cons, eqSimplification sched eqs forb maxSignal p = .ok (subs, cons) ∧ Solved p forb eqs subs cons ∧
      Renames forb subs := by
  obtain ⟨blocks, outs, subs, h1, h2, h3, h4⟩ := eqSimplification_clusters hp sched hs eqs forb maxSignal hE hb
  have h5 := solved_flatten (h3.imp fun _ _ ⟨rh, h⟩ => h.solved) h2.disjoint
  refine ⟨subs, _, h1, h5.perm h4 (List.Perm.refl _) (fun ρ => partition_holds h2 ρ) (fun c hc => partition_mem h2 c hc), ⟨?_⟩⟩
  intro s hs
  obtain ⟨r, hr, hs⟩ := List.mem_flatMap.1 (h4.mem_iff.1 hs)
  obtain ⟨B, _, rh, hB⟩ := forall₂_exists_left h3 r hr
  exact ⟨rh, hB.rep.1, (hB.rhs s hs).1⟩

/-! ### The linear phase -/

theorem Linear.elim_solved {forb : List Nat} (h0 : 0 ∈ forb) {cs : List C} (hcs : ∀ c ∈ cs, LinClean p c) {out : Simplified}
    (h : Elim p forb cs out) : Solved p forb cs out.substitutions out.constraints := by
  have hocc : ∀ (c : C), LinClean p c → ∀ x, c.Occurs x ↔ x ∈ c.c.keys := by
    intro c hc x
    unfold Constraint.Occurs
    rw [hc.a, hc.b]; simp [CMap.keys]
  have hnew : ∀ x, (x = 0 ∨ ∃ c ∈ cs, x ∈ c.c.keys) → x = 0 ∨ ∃ c ∈ cs, c.Occurs x := by
    rintro x (h | ⟨c, hc, h⟩)
    · exact Or.inl h
    · exact Or.inr ⟨c, hc, (hocc c (hcs c hc) x).2 h⟩
  have hrm : ∀ s ∈ out.substitutions, s.frm ∈ out.removed := by
    intro s hs; rw [h.removed]; exact List.mem_map.2 ⟨s, hs, rfl⟩
  refine ⟨fun ρ hρ => ?_, fun s hs => ?_, ?_, fun s hs t ht => ?_, fun s hs x hx => ?_, fun c hc => ?_, fun c hc x hx => ?_⟩
  · rw [h.equiv ρ hρ]; exact and_comm
  · have hf := h.prot _ (hrm s hs)
    have hz : s.frm ≠ 0 := by intro h; rw [h] at hf; exact hf h0
    refine ⟨hz, hf, ?_⟩
    rcases hnew _ (h.noNew s.frm (Or.inr ⟨s, hs, Or.inl rfl⟩)) with h | h
    · exact absurd h hz
    · exact h
  · rw [← h.removed]; exact h.nodup
  · exact h.disjoint _ (hrm s hs) t ht
  · exact hnew x (h.noNew x (Or.inr ⟨s, hs, Or.inr hx⟩))
  · exact (LinClean.clean (h.clean c hc)).good
  · rw [hocc c (h.clean c hc)] at hx
    have hxf := h.consts c hc x hx
    rcases hnew x (h.noNew x (Or.inl ⟨c, hc, hx⟩)) with h | h
    · exact Or.inl h
    · exact Or.inr ⟨hxf, h⟩

theorem linearSimplification_spec (hp : p.Prime) (sched : Sched) (hs : sched.Valid) (ph : Nat) (fuel : List C → Nat)
    (hfuel : ∀ cs, enough cs ≤ fuel cs) (linear : List C) (forb : List Nat) (h0 : 0 ∈ forb) (maxSignal : Nat) (old : Bool)
    (hL : ∀ c ∈ linear, LinClean p c) (hb : ∀ c ∈ linear, ∀ x, c.Occurs x → x ≠ 0 → x < maxSignal) :
    ∃ subs cons, linearSimplification sched ph fuel linear forb maxSignal p old = .ok (subs, cons) ∧
      Solved p forb linear subs cons ∧ ∀ c ∈ cons, LinClean p c := by
  obtain ⟨clusters, h1, h2⟩ := buildClusters_spec (sched.sets ph) (hs.sets ph) linear maxSignal
    (fun c hc x hx => hb c hc x ((mem_signalSet c x).1 hx).2 ((mem_signalSet c x).1 hx).1)
  obtain ⟨results, h3, h4⟩ := runClusters_spec (fun id cs => do
      let r ← fullSimplification (sched.hash ph id) forb p old (fuel cs) cs
      Except.ok (reorder (sched.leave ph id r.substitutions.length) r.substitutions, r.constraints))
    (fun cs (r : List S × List C) => Solved p forb cs r.1 r.2 ∧ ∀ c ∈ r.2, LinClean p c) clusters 0 (by
      intro n k hk
      have hk' : k.constraints ∈ clusters.map Cluster.constraints := List.mem_map.2 ⟨k, hk, rfl⟩
      have hcl : ∀ c ∈ k.constraints, LinClean p c :=
        fun c hc => hL c (partition_mem h2 c (List.mem_flatten.2 ⟨_, hk', hc⟩))
      obtain ⟨out, f1, f2⟩ := full_elim hp (sched.hash ph n) (hs.hash ph n) forb h0 old k.constraints hcl
      refine ⟨_, by simp only [f1 _ (hfuel _), ok_bind]; rfl, ?_, f2.clean⟩
      exact (Linear.elim_solved h0 hcl f2).perm (reorder_perm (hs.leave ph n _)) (List.Perm.refl _) (fun _ => Iff.rfl)
        (fun _ h => h))
  have hrp := reorder_perm (l := results) (hs.arrive ph results.length)
  refine ⟨(reorder (sched.arrive ph results.length) results).flatMap Prod.fst,
    (reorder (sched.arrive ph results.length) results).flatMap Prod.snd, ?_, ?_, ?_⟩
  · unfold linearSimplification
    simp only [h1, ok_bind, h3]
  · exact (solved_flatten (h4.imp fun _ _ h => h.1) h2.disjoint).perm (hrp.flatMap_right _) (hrp.flatMap_right _)
      (fun ρ => partition_holds h2 ρ) (fun c hc => partition_mem h2 c hc)
  · intro c hc
    obtain ⟨r, hr, hc⟩ := List.mem_flatMap.1 hc
    obtain ⟨B, _, _, hB⟩ := forall₂_exists_left h4 r (hrp.mem_iff.1 hr)
    exact hB c hc

end Verif.Simplification
