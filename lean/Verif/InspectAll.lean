import Verif.InspectNode

/-! # The analysis of a whole program -/

set_option linter.unusedSectionVars false
set_option linter.unusedSimpArgs false
set_option linter.unusedVariables false

namespace Verif.Inspect
open Verif.ModArith (Res Fail)
open Verif.Algebra Verif.Dag
open Verif.Props.Algebra (ok_bind)

variable {p : Nat}

/-- Spec: the template at a position is the first one with its name that is not a custom gate, and its name is not in a list. -/
def Fresh (V : List Name) (ts : List Template) (i : Nat) (t : Template) : Prop :=
  ts[i]? = some t ∧ t.isCustomGate = false ∧ t.name ∉ V ∧ ∀ j < i, ∀ t', ts[j]? = some t' → t'.isCustomGate = false → t'.name ≠ t.name

/-- What is known of one node. -/
structure Ready (ts : List Template) (t : Template) (us : List Name) (x : Node × List Nat) : Prop where
  name : x.1.name = t.name
  custom : x.1.isCustomGate = t.isCustomGate
  ok : AllVisible ts t us → ∃ stats, visitNode x.1 x.2 = .ok stats ∧ Stated ts t us stats
  bad : ¬ AllVisible ts t us → visitNode x.1 x.2 = .error .panic
  mem : t ∈ ts

theorem fresh_zero {V : List Name} {t t' : Template} {l : List Template} :
    Fresh V (t :: l) 0 t' ↔ t' = t ∧ t.isCustomGate = false ∧ t.name ∉ V := by
  unfold Fresh
  simp only [List.getElem?_cons_zero, Option.some.injEq, Nat.not_lt_zero, false_implies, implies_true, and_true]
  constructor
  · rintro ⟨rfl, h⟩; exact ⟨rfl, h⟩
  · rintro ⟨rfl, h⟩; exact ⟨rfl, h⟩

theorem fresh_chosen {V : List Name} {t t' : Template} {l : List Template} {i : Nat} (hc : t.isCustomGate = false) :
    Fresh V (t :: l) (i + 1) t' ↔ Fresh (V ++ [t.name]) l i t' := by
  unfold Fresh
  simp only [List.getElem?_cons_succ, List.mem_append, List.mem_singleton, not_or]
  constructor
  · rintro ⟨h1, h2, h3, h4⟩
    refine ⟨h1, h2, ⟨h3, fun he => h4 0 (by omega) t rfl hc he.symm⟩, fun j hj t'' hj' => ?_⟩
    exact h4 (j + 1) (by omega) t'' (by simpa using hj')
  · rintro ⟨h1, h2, ⟨h3, h3'⟩, h4⟩
    refine ⟨h1, h2, h3, fun j hj t'' hj' hcu => ?_⟩
    cases j with
    | zero =>
      simp only [List.getElem?_cons_zero, Option.some.injEq] at hj'
      subst hj'
      exact Ne.symm h3'
    | succ j => exact h4 j (by omega) t'' (by simpa using hj') hcu

theorem fresh_skipped {V : List Name} {t t' : Template} {l : List Template} {i : Nat} (hc : ¬ (t.isCustomGate = false ∧ t.name ∉ V)) :
    Fresh V (t :: l) (i + 1) t' ↔ Fresh V l i t' := by
  unfold Fresh
  simp only [List.getElem?_cons_succ]
  constructor
  · rintro ⟨h1, h2, h3, h4⟩
    exact ⟨h1, h2, h3, fun j hj t'' hj' => h4 (j + 1) (by omega) t'' (by simpa using hj')⟩
  · rintro ⟨h1, h2, h3, h4⟩
    refine ⟨h1, h2, h3, fun j hj t'' hj' hcu => ?_⟩
    cases j with
    | zero =>
      simp only [List.getElem?_cons_zero, Option.some.injEq] at hj'
      subst hj'
      intro he
      exact hc ⟨hcu, he ▸ h3⟩
    | succ j => exact h4 j (by omega) t'' (by simpa using hj') hcu

theorem analyse_spec {ts : List Template} (h : WellNamed ts) : ∀ (l : List Template) (us : Nat → List Name) (xs : List (Node × List Nat)) (V : List Name),
    xs.length = l.length → (∀ i t x, l[i]? = some t → xs[i]? = some x → Ready ts t (us i) x) →
    ((∀ i t, Fresh V l i t → AllVisible ts t (us i)) → ∃ rs, analyse xs V = .ok rs ∧ rs.Nodup ∧
      ∀ r, r ∈ rs ↔ ∃ i t, Fresh V l i t ∧ About ts t (us i) r) ∧
    ((¬ ∀ i t, Fresh V l i t → AllVisible ts t (us i)) → analyse xs V = .error .panic)
  | [], us, [], V, _, _ => by
    have hno : ∀ i t, ¬ Fresh V [] i t := by intro i t hf; have := hf.1; simp at this
    exact ⟨fun _ => ⟨[], rfl, by simp, by simp [hno]⟩, fun hh => absurd (fun i t hf => absurd hf (hno i t)) hh⟩
  | [], _, _ :: _, _, hl, _ => by simp at hl
  | _ :: _, _, [], _, hl, _ => by simp at hl
  | t :: l, us, x :: xs, V, hl, hr => by
    have hr0 := hr 0 t x rfl rfl
    have hr' : ∀ i t x, l[i]? = some t → xs[i]? = some x → Ready ts t (us (i + 1)) x := fun i t x h1 h2 =>
      hr (i + 1) t x (by simpa using h1) (by simpa using h2)
    obtain ⟨n, ids⟩ := x
    by_cases hc : t.isCustomGate = false ∧ t.name ∉ V
    · have hcond : (!n.isCustomGate && !V.contains n.name) = true := by
        rw [hr0.custom, hr0.name]; simp [hc.1, hc.2]
      obtain ⟨g1, g2⟩ := analyse_spec h l (fun i => us (i + 1)) xs (V ++ [t.name]) (by simpa using hl) hr'
      have hallv : (∀ i t', Fresh V (t :: l) i t' → AllVisible ts t' (us i)) ↔
          AllVisible ts t (us 0) ∧ ∀ i t', Fresh (V ++ [t.name]) l i t' → AllVisible ts t' (us (i + 1)) := by
        constructor
        · intro hh
          exact ⟨hh 0 t (fresh_zero.2 ⟨rfl, hc⟩), fun i t' hf => hh (i + 1) t' ((fresh_chosen hc.1).2 hf)⟩
        · rintro ⟨h0, hs⟩ i t' hf
          cases i with
          | zero => rw [(fresh_zero.1 hf).1]; exact h0
          | succ i => exact hs i t' ((fresh_chosen hc.1).1 hf)
      rw [hallv]
      simp only [analyse, hcond, if_true]
      refine ⟨?_, ?_⟩
      · rintro ⟨h0, hs⟩
        obtain ⟨stats, s1, s2⟩ := hr0.ok h0
        obtain ⟨rs, i1, i2, i3⟩ := interpret_spec h hr0.mem s2
        obtain ⟨rest, j1, j2, j3⟩ := g1 hs
        have hn : n.name = t.name := hr0.name
        refine ⟨rs ++ rest, ?_, ?_, ?_⟩
        · simp only at s1
          rw [s1, ok_bind, hn, i1, ok_bind, j1, ok_bind]
        · rw [List.nodup_append']
          refine ⟨i2, j2, fun r ha hb => ?_⟩
          obtain ⟨a, _, ex, _, d1⟩ := (i3 r).1 ha
          obtain ⟨i, t', hf, a', _, ex', _, d2⟩ := (j3 r).1 hb
          have := describes_template d1 d2 rfl
          exact hf.2.2.1 (by rw [← this]; simp)
        · intro r
          rw [List.mem_append, i3, j3]
          constructor
          · rintro (ha | ⟨i, t', hf, ha⟩)
            · exact ⟨0, t, fresh_zero.2 ⟨rfl, hc⟩, ha⟩
            · exact ⟨i + 1, t', (fresh_chosen hc.1).2 hf, ha⟩
          · rintro ⟨i, t', hf, ha⟩
            cases i with
            | zero => rw [(fresh_zero.1 hf).1] at ha; exact Or.inl ha
            | succ i => exact Or.inr ⟨i, t', (fresh_chosen hc.1).1 hf, ha⟩
      · intro hbad
        have hn : n.name = t.name := hr0.name
        by_cases h0 : AllVisible ts t (us 0)
        · obtain ⟨stats, s1, s2⟩ := hr0.ok h0
          obtain ⟨rs, i1, i2, i3⟩ := interpret_spec h hr0.mem s2
          have j1 := g2 fun hs => hbad ⟨h0, hs⟩
          simp only at s1
          rw [s1, ok_bind, hn, i1, ok_bind, j1]
          rfl
        · have := hr0.bad h0
          simp only at this
          rw [this]
          rfl
    · have hcond : (!n.isCustomGate && !V.contains n.name) = false := by
        rw [hr0.custom, hr0.name]
        rw [Bool.eq_false_iff]
        intro hh
        simp only [Bool.and_eq_true, Bool.not_eq_true', List.contains_eq_mem, decide_eq_false_iff_not] at hh
        exact hc hh
      obtain ⟨g1, g2⟩ := analyse_spec h l (fun i => us (i + 1)) xs V (by simpa using hl) hr'
      have hiff : ∀ P : Nat → Template → Prop, (∃ i t', Fresh V (t :: l) i t' ∧ P i t') ↔ ∃ i t', Fresh V l i t' ∧ P (i + 1) t' := by
        intro P
        constructor
        · rintro ⟨i, t', hf, hp⟩
          cases i with
          | zero => exact absurd (fresh_zero.1 hf).2 hc
          | succ i => exact ⟨i, t', (fresh_skipped hc).1 hf, hp⟩
        · rintro ⟨i, t', hf, hp⟩
          exact ⟨i + 1, t', (fresh_skipped hc).2 hf, hp⟩
      have hallv : (∀ i t', Fresh V (t :: l) i t' → AllVisible ts t' (us i)) ↔
          ∀ i t', Fresh V l i t' → AllVisible ts t' (us (i + 1)) := by
        constructor
        · intro hh i t' hf
          exact hh (i + 1) t' ((fresh_skipped hc).2 hf)
        · intro hs i t' hf
          cases i with
          | zero => exact absurd (fresh_zero.1 hf).2 hc
          | succ i => exact hs i t' ((fresh_skipped hc).1 hf)
      rw [hallv]
      simp only [analyse, hcond, Bool.false_eq_true, if_false]
      refine ⟨fun hs => ?_, g2⟩
      obtain ⟨rest, j1, j2, j3⟩ := g1 hs
      refine ⟨rest, j1, j2, fun r => ?_⟩
      rw [j3]
      exact (hiff fun i t' => About ts t' (us i) r).symm

theorem mapM_forall₂ {α β : Type} {f : α → Res β} {R : α → β → Prop} : ∀ (l : List α), (∀ a ∈ l, ∃ b, f a = .ok b ∧ R a b) →
    ∃ l', l.mapM f = .ok l' ∧ List.Forall₂ R l l'
  | [], _ => ⟨[], rfl, .nil⟩
  | a :: l, h => by
    obtain ⟨b, h1, h2⟩ := h a (by simp)
    obtain ⟨l', h3, h4⟩ := mapM_forall₂ l fun a ha => h a (by simp [ha])
    exact ⟨b :: l', by rw [List.mapM_cons, h1, ok_bind, h3, ok_bind]; rfl, .cons h2 h4⟩

theorem forall₂_get {α β : Type} {R : α → β → Prop} {l : List α} {l' : List β} (h : List.Forall₂ R l l') :
    l'.length = l.length ∧ ∀ (i : Nat) (a : α) (b : β), l[i]? = some a → l'[i]? = some b → R a b := by
  induction h with
  | nil => simp
  | cons hh _ ih =>
    refine ⟨by simp [ih.1], fun i a b h1 h2 => ?_⟩
    cases i with
    | zero =>
      simp only [List.getElem?_cons_zero, Option.some.injEq] at h1 h2
      subst h1; subst h2; exact hh
    | succ i => exact ih.2 i a b (by simpa using h1) (by simpa using h2)

/-- The whole analysis: the underscored signals of all templates are known names. -/
theorem inspect_spec {ts : List Template} (h : Program p ts) {us : Nat → List Name}
    (hu : ∀ i t, ts[i]? = some t → ∀ s ∈ us i, Known ts t s) :
    ((∀ i t, Fresh [] ts i t → AllVisible ts t (us i)) → ∃ rs, inspect ts us = .ok rs ∧ rs.Nodup ∧
      ∀ r, r ∈ rs ↔ ∃ i t, Fresh [] ts i t ∧ About ts t (us i) r) ∧
    ((¬ ∀ i t, Fresh [] ts i t → AllVisible ts t (us i)) → inspect ts us = .error .panic) := by
  obtain ⟨d, h1, hb⟩ := buildDag_spec h.resolves
  have hget : ∀ x ∈ d.nodes.zipIdx, ∃ t es cs, ts[x.2]? = some t ∧ numbered ts t = .ok cs ∧ NodeOK ts x.2 t x.1 es (cleaned cs) := by
    intro x hx
    have hx' := List.mem_zipIdx_iff_getElem?.1 hx
    have hlt : x.2 < ts.length := by rw [← hb.nodes]; exact (List.getElem?_eq_some_iff.1 hx').1
    obtain ⟨n, es, cs, g1, _, g3, g4⟩ := hb.ok x.2 ts[x.2] (List.getElem?_eq_getElem hlt)
    rw [hx'] at g1
    injection g1 with g1
    subst g1
    exact ⟨_, es, cs, List.getElem?_eq_getElem hlt, g3, g4⟩
  have hone : ∀ x ∈ d.nodes.zipIdx, ∃ y : Node × List Nat, (do
      let ids ← underscoredIds x.1 (us x.2)
      .ok (x.1, ids) : Res (Node × List Nat)) = .ok y ∧ ∀ t, ts[x.2]? = some t → Ready ts t (us x.2) y := by
    intro x hx
    obtain ⟨t, es, cs, g1, g2, g3⟩ := hget x hx
    have hmem := List.mem_of_getElem? g1
    obtain ⟨ids, i1, i2⟩ := mapM_forall₂ (f := fun s => unwrap (NMap.get x.1.correspondence s)) (R := fun s y => (s, y) ∈ table ts t) (us x.2) (by
      intro s hs
      obtain ⟨e, he, hes⟩ := List.mem_map.1 ((known_iff ts t s).2 (hu x.2 t g1 s hs))
      have he' : (s, e.2) ∈ table ts t := by rw [← hes]; exact he
      exact ⟨e.2, by rw [g3.corr, (NMap.get_eq_some (table_fresh h.named t hmem)).2 he']; rfl, he'⟩)
    refine ⟨(x.1, ids), ?_, fun t' ht' => ?_⟩
    · unfold underscoredIds
      rw [i1, ok_bind]
    · rw [g1] at ht'
      injection ht' with ht'
      subst ht'
      have := visit_spec h g1 g2 g3 i2
      exact ⟨g3.name, g3.custom, this.1, this.2, hmem⟩
  obtain ⟨xs, j1, j2⟩ := mapM_forall₂ _ hone
  obtain ⟨j3, j4⟩ := forall₂_get j2
  have := analyse_spec h.named ts us xs [] (by rw [j3]; simp [hb.nodes]) (by
    intro i t x g1 g2
    have hlt : i < d.nodes.length := by rw [hb.nodes]; exact (List.getElem?_eq_some_iff.1 g1).1
    exact j4 i (d.nodes[i], i) x (by simp [hlt]) g2 t g1)
  have hrun : inspect ts us = analyse xs [] := by
    unfold inspect
    rw [h1, ok_bind, j1, ok_bind]
  rw [hrun]
  exact this

end Verif.Inspect
