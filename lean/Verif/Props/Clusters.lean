import Verif.ClustersLemmas

/-! # Property C23: clusters partition the constraints by shared signals -/

namespace Verif.Props.Clusters
open Verif.Linear Verif.Algebra Verif.Clusters
open Verif.ModArith (Res Fail)

/-- Spec: two constraints mention a common signal (wire 0 is the constant, not a signal). -/
def Shares (c d : C) : Prop := ∃ s, s ≠ 0 ∧ c.Occurs s ∧ d.Occurs s

theorem mem_signalSet (c : C) (s : Nat) : s ∈ signalSet c ↔ s ≠ 0 ∧ c.Occurs s := by
  unfold signalSet Constraint.takeSignals Constraint.Occurs
  rw [List.mem_dedup, List.mem_filter]
  simp only [List.mem_append, decide_eq_true_eq, Nat.default_eq_zero, or_assoc]
  tauto

/-- C23: clustering never aborts when the signals are in range, whatever the hash order; the clusters contain every
non-empty constraint exactly once; different clusters share no signal; a cluster is non-empty and connected through
shared signals inside the cluster. -/
theorem C23_partition (ord : SetOrder) (hord : ord.Valid) (cs : List C) (noVars : Nat)
    (hb : ∀ c ∈ cs, ∀ s, s ≠ 0 → c.Occurs s → s < noVars) :
    ∃ clusters, buildClusters ord cs noVars = .ok clusters ∧
      (clusters.flatMap fun k => k.constraints).Perm (cs.filter fun c => decide (c ≠ ⟨[], [], []⟩)) ∧
      (clusters.Pairwise fun A B => ∀ a ∈ A.constraints, ∀ b ∈ B.constraints, ¬ Shares a b) ∧
      ∀ A ∈ clusters, A.constraints ≠ [] ∧ ∀ a ∈ A.constraints, ∀ b ∈ A.constraints,
        Relation.ReflTransGen (fun x y => x ∈ A.constraints ∧ y ∈ A.constraints ∧ Shares x y) a b := by
  obtain ⟨clusters, h1, h2⟩ := buildClusters_spec ord hord cs noVars
    (fun c hc s hs => hb c hc s ((mem_signalSet c s).1 hs).1 ((mem_signalSet c s).1 hs).2)
  refine ⟨clusters, h1, ?_, ?_, ?_⟩
  · have := h2.perm
    rw [← List.flatMap_def] at this
    have hf : (cs.filter fun c => decide (c ≠ ⟨[], [], []⟩)) = cs.filter fun c => !c.isEmpty := by
      apply List.filter_congr
      rintro ⟨a, b, c⟩ _
      cases a <;> cases b <;> cases c <;> simp [Constraint.isEmpty]
    rw [hf]; exact this
  · have := h2.disjoint
    rw [List.pairwise_map] at this
    refine this.imp ?_
    rintro A B h a ha b hb ⟨s, hs, h1, h2⟩
    exact h a ha b hb s ((mem_signalSet a s).2 ⟨hs, h1⟩) ((mem_signalSet b s).2 ⟨hs, h2⟩)
  · intro A hA
    have hA' : A.constraints ∈ clusters.map Cluster.constraints := List.mem_map.2 ⟨A, hA, rfl⟩
    refine ⟨h2.nonempty _ hA', fun a ha b hb => ?_⟩
    have := h2.connected _ hA' a ha b hb
    clear hb
    induction this with
    | refl => exact Relation.ReflTransGen.refl
    | tail _ hs ih =>
      obtain ⟨x, y, s, h3, h4⟩ := hs
      exact ih.tail ⟨x, y, s, ((mem_signalSet _ s).1 h3).1, ((mem_signalSet _ s).1 h3).2, ((mem_signalSet _ s).1 h4).2⟩

/-- Two constraints sharing a signal are in the same cluster: the form used by the callers. -/
theorem C23_same_cluster (ord : SetOrder) (hord : ord.Valid) (cs : List C) (noVars : Nat)
    (hb : ∀ c ∈ cs, ∀ s, s ≠ 0 → c.Occurs s → s < noVars) (clusters : List Cluster)
    (h : buildClusters ord cs noVars = .ok clusters) (i j : Nat) (A B : Cluster) (hA : clusters[i]? = some A)
    (hB : clusters[j]? = some B) (a b : C) (ha : a ∈ A.constraints) (hb' : b ∈ B.constraints) (hs : Shares a b) :
    i = j := by
  obtain ⟨cl, h1, _, h3, _⟩ := C23_partition ord hord cs noVars hb
  rw [h] at h1
  injection h1 with h1; subst h1
  obtain ⟨hi, rfl⟩ := List.getElem?_eq_some_iff.1 hA
  obtain ⟨hj, rfl⟩ := List.getElem?_eq_some_iff.1 hB
  have hs' : Shares b a := by obtain ⟨s, x, y, z⟩ := hs; exact ⟨s, x, z, y⟩
  rw [List.pairwise_iff_getElem] at h3
  rcases Nat.lt_trichotomy i j with hij | hij | hij
  · exact absurd hs (h3 i j hi hj hij a ha b hb')
  · exact hij
  · exact absurd hs' (h3 j i hj hi hij b hb' a ha)

/-- Six constraints (one empty) over signals 1..7; the fifth constraint joins two groups. -/
def sample : List C := [⟨[], [], [(1, 1), (2, 3)]⟩, ⟨[], [], [(3, 1), (4, 3), (0, 1)]⟩, ⟨[], [], []⟩,
  ⟨[], [], [(5, 1), (6, 3)]⟩, ⟨[], [], [(2, 1), (4, 3)]⟩, ⟨[(1, 1)], [(4, 1)], [(7, 2)]⟩]

/-- The hypotheses hold and there are two clusters, of sizes 1 and 4. -/
example : (∀ c ∈ sample, ∀ s, s ≠ 0 → c.Occurs s → s < 8) ∧
    (buildClusters (fun n l => if n % 2 = 0 then l else l.reverse) sample 8).map
      (fun cl => cl.map fun k => (k.constraints.length, k.numSignals)) = .ok [(1, 2), (4, 5)] := by
  constructor
  · intro c hc s _ ho
    simp only [sample, List.mem_cons, List.not_mem_nil, or_false] at hc
    rcases hc with rfl | rfl | rfl | rfl | rfl | rfl <;>
      simp [Constraint.Occurs, CMap.keys] at ho <;> omega
  · decide +kernel

/-- A signal outside the table aborts: the range hypothesis is needed. -/
example : (match buildClusters (fun _ l => l) sample 7 with | .error .panic => true | _ => false) = true := by decide +kernel

end Verif.Props.Clusters
