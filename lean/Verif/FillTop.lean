import Verif.FillLemmas

set_option linter.unusedSimpArgs false
set_option linter.unusedVariables false

namespace Verif.Fill

open Verif.Exec (AState assignCell)

theorem initBs_map : ∀ bs, initBs bs = bs.map initB
  | [] => rfl
  | b :: bs => by simp [initBs, initBs_map bs]

theorem initFs_map : ∀ fs, initFs fs = fs.map initF
  | [] => rfl
  | b :: bs => by simp [initFs, initFs_map bs]

mutual
theorem flatB_init (b : Bus) : flatB (initB b) = List.replicate (flatB b).length .noAssigned := by
  match b with
  | .mk _ fs => rw [initB, flatB, flatB, flatFs_init fs]

theorem flatBs_init (bs : List Bus) : flatBs (initBs bs) = List.replicate (flatBs bs).length .noAssigned := by
  match bs with
  | [] => rfl
  | b :: bs => rw [initBs, flatBs, flatBs, flatB_init b, flatBs_init bs, List.length_append, List.replicate_append_replicate]

theorem flatF_init (f : Field) : flatF (initF f) = List.replicate (flatF f).length .noAssigned := by
  match f with
  | .mk (.sig cs) _ => rw [initF, flatF, flatF, List.map_const']
  | .mk (.bus bs) _ => rw [initF, flatF, flatF, flatBs_init bs]

theorem flatFs_init (fs : List Field) : flatFs (initFs fs) = List.replicate (flatFs fs).length .noAssigned := by
  match fs with
  | [] => rfl
  | f :: fs => rw [initFs, flatFs, flatFs, flatF_init f, flatFs_init fs, List.length_append, List.replicate_append_replicate]
end

theorem flatFs_init_length (fs : List Field) : (flatFs (initFs fs)).length = (flatFs fs).length := by
  rw [flatFs_init, List.length_replicate]

theorem flatBs_init_length (bs : List Bus) : (flatBs (initBs bs)).length = (flatBs bs).length := by
  rw [flatBs_init, List.length_replicate]

mutual
theorem initB_idem (b : Bus) : initB (initB b) = initB b := by
  match b with
  | .mk _ fs => rw [initB, initB, initFs_idem fs]

theorem initBs_idem (bs : List Bus) : initBs (initBs bs) = initBs bs := by
  match bs with
  | [] => rfl
  | b :: bs => rw [initBs, initBs, initB_idem b, initBs_idem bs]

theorem initF_idem (f : Field) : initF (initF f) = initF f := by
  match f with
  | .mk (.sig cs) _ => simp [initF]
  | .mk (.bus bs) _ => simp [initF, initBs_idem bs, initBs_length]

theorem initFs_idem (fs : List Field) : initFs (initFs fs) = initFs fs := by
  match fs with
  | [] => rfl
  | f :: fs => rw [initFs, initFs, initF_idem f, initFs_idem fs]
end

/-- The interval depends on the structure only. -/
theorem span_init : ∀ (p : Path) (f : Field), span p (initF f) = span p f
  | .here s n, .mk (.sig cs) left => by simp [initF, span]
  | .here s n, .mk (.bus bs) left => by
    simp only [initF, span, initBs_length]
    rw [initBs_map, ← List.map_take, ← List.map_drop, ← List.map_take, ← initBs_map, ← initBs_map, flatBs_init_length,
      flatBs_init_length]
  | .under _ _ _, .mk (.sig _) _ => by simp [initF, span]
  | .under i j r, .mk (.bus bs) left => by
    simp only [initF, span]
    rw [initBs_map, List.getElem?_map, ← List.map_take, ← initBs_map, flatBs_init_length]
    rcases hb : bs[i]? with _ | ⟨has, fs⟩
    · rfl
    · simp only [Option.map_some, initB]
      rw [initFs_map, List.getElem?_map, ← List.map_take, ← initFs_map, flatFs_init_length]
      rcases hf : fs[j]? with _ | f
      · rfl
      · simp only [Option.map_some, span_init r f]

mutual
theorem SolidB_init (b : Bus) : SolidB (initB b) ↔ SolidB b := by
  match b with
  | .mk _ fs =>
    rw [initB, SolidB, SolidB, SolidFs_init fs, flatFs_init]
    simp

theorem SolidBs_init (bs : List Bus) : SolidBs (initBs bs) ↔ SolidBs bs := by
  match bs with
  | [] => rfl
  | b :: bs => rw [initBs, SolidBs, SolidBs, SolidB_init b, SolidBs_init bs]

theorem SolidF_init (f : Field) : SolidF (initF f) ↔ SolidF f := by
  match f with
  | .mk (.sig cs) _ => rw [initF, SolidF, SolidF]
  | .mk (.bus bs) _ => rw [initF, SolidF, SolidF, SolidBs_init bs]

theorem SolidFs_init (fs : List Field) : SolidFs (initFs fs) ↔ SolidFs fs := by
  match fs with
  | [] => rfl
  | f :: fs => rw [initFs, SolidFs, SolidFs, SolidF_init f, SolidFs_init fs]
end

mutual
/-- The initial state is consistent. -/
theorem InvB_init (b : Bus) (h : SolidB b) : InvB (initB b) ∧ HasB (initB b) := by
  match b with
  | .mk _ fs =>
    rw [SolidB] at h
    obtain ⟨h1, h2⟩ := InvFs_init fs h.2
    refine ⟨h1, ?_, h2⟩
    rw [flatFs_init]
    simp

theorem InvBs_init (bs : List Bus) (h : SolidBs bs) : InvBs (initBs bs) ∧ HasBs (initBs bs) := by
  match bs with
  | [] => exact ⟨trivial, trivial⟩
  | b :: bs => exact ⟨⟨(InvB_init b h.1).1, (InvBs_init bs h.2).1⟩, (InvB_init b h.1).2, (InvBs_init bs h.2).2⟩

theorem InvF_init (f : Field) (h : SolidF f) : InvF (initF f) ∧ HasF (initF f) := by
  match f with
  | .mk (.sig cs) _ =>
    refine ⟨?_, trivial⟩
    rw [initF, InvF, List.map_const', List.countP_replicate]
    simp
  | .mk (.bus bs) _ =>
    obtain ⟨h1, h2⟩ := InvBs_init bs h
    refine ⟨⟨?_, h1⟩, h2⟩
    rw [countP_openB ((SolidBs_init bs).2 h), initBs_length]
    intro x hx; rw [flatBs_init] at hx; exact List.eq_of_mem_replicate hx

theorem InvFs_init (fs : List Field) (h : SolidFs fs) : InvFs (initFs fs) ∧ HasFs (initFs fs) := by
  match fs with
  | [] => exact ⟨trivial, trivial⟩
  | f :: fs => exact ⟨⟨(InvF_init f h.1).1, (InvFs_init fs h.2).1⟩, (InvF_init f h.1).2, (InvFs_init fs h.2).2⟩
end

mutual
/-- A consistent state is determined by its structure and its signals. -/
theorem uniqB (b b' : Bus) (h : initB b = initB b') (hf : flatB b = flatB b') (h1 : InvB b) (h2 : InvB b') (h3 : HasB b)
    (h4 : HasB b') : b = b' := by
  match b, b' with
  | .mk has fs, .mk has' fs' =>
    simp only [initB, Bus.mk.injEq, true_and] at h
    simp only [flatB] at hf
    have := uniqFs fs fs' h hf h1 h2 h3.2 h4.2
    subst this
    rw [h3.1, h4.1]

theorem uniqBs (bs bs' : List Bus) (h : initBs bs = initBs bs') (hf : flatBs bs = flatBs bs') (h1 : InvBs bs) (h2 : InvBs bs')
    (h3 : HasBs bs) (h4 : HasBs bs') : bs = bs' := by
  match bs, bs' with
  | [], [] => rfl
  | [], b :: bs => simp [initBs] at h
  | b :: bs, [] => simp [initBs] at h
  | b :: bs, b' :: bs' =>
    simp only [initBs, List.cons.injEq] at h
    simp only [flatBs] at hf
    have hl : (flatB b).length = (flatB b').length := by
      have := congrArg (fun x => (flatB x).length) h.1
      simpa [flatB_init] using this
    obtain ⟨e1, e2⟩ := List.append_inj hf hl
    rw [uniqB b b' h.1 e1 h1.1 h2.1 h3.1 h4.1, uniqBs bs bs' h.2 e2 h1.2 h2.2 h3.2 h4.2]

theorem uniqF (f f' : Field) (h : initF f = initF f') (hf : flatF f = flatF f') (h1 : InvF f) (h2 : InvF f') (h3 : HasF f)
    (h4 : HasF f') : f = f' := by
  match f, f' with
  | .mk (.sig cs) l, .mk (.sig cs') l' =>
    simp only [flatF] at hf; subst hf
    rw [InvF] at h1 h2
    rw [h1, h2]
  | .mk (.bus bs) l, .mk (.bus bs') l' =>
    simp only [initF, Field.mk.injEq, Wire.bus.injEq] at h
    simp only [flatF] at hf
    have := uniqBs bs bs' h.1 hf h1.2 h2.2 h3 h4
    subst this
    rw [h1.1, h2.1]
  | .mk (.sig cs) l, .mk (.bus bs') l' => simp [initF] at h
  | .mk (.bus bs) l, .mk (.sig cs') l' => simp [initF] at h

theorem uniqFs (fs fs' : List Field) (h : initFs fs = initFs fs') (hf : flatFs fs = flatFs fs') (h1 : InvFs fs) (h2 : InvFs fs')
    (h3 : HasFs fs) (h4 : HasFs fs') : fs = fs' := by
  match fs, fs' with
  | [], [] => rfl
  | [], b :: bs => simp [initFs] at h
  | b :: bs, [] => simp [initFs] at h
  | b :: bs, b' :: bs' =>
    simp only [initFs, List.cons.injEq] at h
    simp only [flatFs] at hf
    have hl : (flatF b).length = (flatF b').length := by
      have := congrArg (fun x => (flatF x).length) h.1
      simpa [flatF_init] using this
    obtain ⟨e1, e2⟩ := List.append_inj hf hl
    rw [uniqF b b' h.1 e1 h1.1 h2.1 h3.1 h4.1, uniqFs bs bs' h.2 e2 h1.2 h2.2 h3.2 h4.2]
end

/-! ## The component -/

/-- First signal and number of signals of an assignment in the list of all signals of the inputs. -/
def opSpan (op : Op) (c : List Field) : Option (Nat × Nat) :=
  match c[op.input]? with
  | none => none
  | some f =>
    match span op.path f with
    | none => none
    | some (o, l) => some ((flatFs (c.take op.input)).length + o, l)

theorem opSpan_init (op : Op) (c : List Field) : opSpan op (initFs c) = opSpan op c := by
  unfold opSpan
  rw [initFs_map, List.getElem?_map, ← List.map_take, ← initFs_map, flatFs_init_length]
  rcases c[op.input]? with _ | f
  · rfl
  · simp only [Option.map_some, span_init]

theorem opSpan_congr (op : Op) {c c' : List Field} (h : initFs c = initFs c') : opSpan op c = opSpan op c' := by
  rw [← opSpan_init, h, opSpan_init]

theorem flat_at {c : List Field} {j : Nat} {f : Field} (hf : c[j]? = some f) :
    flatFs c = flatFs (c.take j) ++ flatF f ++ flatFs (c.drop (j + 1)) := by
  conv => lhs; rw [split_at hf, flatFs_append, flatFs]
  simp

/-- The signals before and after an assignment, by position. -/
def Cells (new : AState) (o l : Nat) (xs ys : List AState) : Prop :=
  ys.length = xs.length ∧ o + l ≤ xs.length ∧
  (∀ i, o ≤ i → i < o + l → ∃ x y, xs[i]? = some x ∧ ys[i]? = some y ∧ Cell new x y) ∧
  ∀ i, ¬ (o ≤ i ∧ i < o + l) → ys[i]? = xs[i]?

theorem Changed.cells {new : AState} {o l : Nat} {xs ys : List AState} (h : Changed new o l xs ys) : Cells new o l xs ys := by
  obtain ⟨pre, mid, post, mid', rfl, rfl, rfl, rfl, hm⟩ := h
  have hl := hm.length_eq
  refine ⟨by simp [hl], by simp, fun i h1 h2 => ?_, fun i h => ?_⟩
  · have hi : i - pre.length < mid.length := by omega
    have hi' : i - pre.length < mid'.length := by omega
    refine ⟨mid[i - pre.length], mid'[i - pre.length], ?_, ?_, ?_⟩
    · rw [List.append_assoc, List.getElem?_append_right h1, List.getElem?_append_left hi, List.getElem?_eq_getElem hi]
    · rw [List.append_assoc, List.getElem?_append_right h1, List.getElem?_append_left hi', List.getElem?_eq_getElem hi']
    · exact hm.get hi hi'
  · by_cases h1 : i < pre.length
    · rw [List.append_assoc, List.append_assoc, List.getElem?_append_left h1, List.getElem?_append_left h1]
    · rw [List.append_assoc, List.append_assoc, List.getElem?_append_right (by omega), List.getElem?_append_right (by omega),
        List.getElem?_append_right (by omega), List.getElem?_append_right (by omega), hl]

/-- Everything known about an accepted assignment. -/
theorem step_ok (op : Op) (c c' : List Field) (h : step op c = .ok c') :
    ∃ o l, opSpan op c = some (o, l) ∧ Cells op.new o l (flatFs c) (flatFs c') ∧ initFs c' = initFs c := by
  unfold step at h
  split at h
  · cases h
  · rename_i f hf
    split at h
    · cases h
    · rename_i g hg
      simp only [Except.ok.injEq] at h; subst h
      obtain ⟨o, l, hsp, hch, hin⟩ := assign_ok _ _ _ _ hg
      refine ⟨_, l, by simp only [opSpan, hf, hsp]; rfl, ?_, ?_⟩
      · have := (hch.around (flatFs (c.take op.input)) (flatFs (c.drop (op.input + 1)))).cells
        rw [flat_at hf, set_at hf, flatFs_append, flatFs]
        simpa using this
      · rw [initFs_map, initFs_map, List.map_set, hin]
        rw [set_at (x := initF f) (by rw [List.getElem?_map, hf]; rfl)]
        exact (split_at (by rw [List.getElem?_map, hf]; rfl)).symm

/-- All signals of an assignment are unassigned. -/
def OpFresh (op : Op) (c : List Field) : Prop :=
  ∀ o l, opSpan op c = some (o, l) → ∀ i, o ≤ i → i < o + l → (flatFs c)[i]? = some .noAssigned

theorem OpFresh.inner {op : Op} {c : List Field} {f : Field} (hf : c[op.input]? = some f) (h : OpFresh op c) : Fresh op.path f := by
  intro o l hsp k h1 h2
  have := h ((flatFs (c.take op.input)).length + o) l (by simp only [opSpan, hf, hsp])
    ((flatFs (c.take op.input)).length + k) (by omega) (by omega)
  rw [flat_at hf, List.append_assoc, List.getElem?_append_right (by omega), List.getElem?_append_left (by
    have := span_le _ f o l hsp; omega)] at this
  rw [← this]; congr 1; omega

theorem step_inv (op : Op) (c c' : List Field) (h : step op c = .ok c') (hn : op.new ≠ .noAssigned) (hi : InvFs c) (hs : SolidFs c)
    (hp : op.path.size ≠ 0) (hfr : OpFresh op c) : InvFs c' := by
  unfold step at h
  split at h
  · cases h
  · rename_i f hf
    split at h
    · cases h
    · rename_i g hg
      simp only [Except.ok.injEq] at h; subst h
      rw [InvFs_iff] at hi ⊢
      rw [SolidFs_iff] at hs
      have hm := List.mem_of_getElem? hf
      intro x hx
      rcases any_of_mem_set hx with rfl | hx
      · exact assign_inv hn _ _ _ hg (hi f hm) (hs f hm) hp (hfr.inner hf)
      · exact hi x hx

theorem step_has (op : Op) (c c' : List Field) (h : step op c = .ok c') (hn : op.new = .assigned) (hs : SolidFs c) (hh : HasFs c)
    (hp : op.path.size ≠ 0) : HasFs c' := by
  unfold step at h
  split at h
  · cases h
  · rename_i f hf
    split at h
    · cases h
    · rename_i g hg
      simp only [Except.ok.injEq] at h; subst h
      rw [hn] at hg
      rw [HasFs_iff] at hh ⊢
      rw [SolidFs_iff] at hs
      have hm := List.mem_of_getElem? hf
      intro x hx
      rcases any_of_mem_set hx with rfl | hx
      · exact assign_has _ _ _ hg (hs f hm) (hh f hm) hp
      · exact hh x hx

theorem step_total (op : Op) (c : List Field) (hn : op.new = .assigned) (hi : InvFs c) (hs : SolidFs c) (hh : HasFs c)
    (hp : op.path.size ≠ 0) (hfr : OpFresh op c) (hsp : (opSpan op c).isSome) : ∃ c', step op c = .ok c' := by
  rcases hf : c[op.input]? with _ | f
  · simp [opSpan, hf] at hsp
  · have hm := List.mem_of_getElem? hf
    have hsp' : (span op.path f).isSome := by
      rcases hq : span op.path f with _ | q
      · simp [opSpan, hf, hq] at hsp
      · rfl
    obtain ⟨g, hg⟩ := assign_total op.path f ((InvFs_iff c).1 hi f hm) ((SolidFs_iff c).1 hs f hm) ((HasFs_iff c).1 hh f hm) hp
      (hfr.inner hf) hsp'
    refine ⟨c.set op.input g, ?_⟩
    simp only [step, hf, hn, hg]

/-- An accepted unconditional assignment was fresh. -/
theorem step_fresh (op : Op) (c c' : List Field) (h : step op c = .ok c') (hn : op.new = .assigned) : OpFresh op c := by
  intro o l hsp i h1 h2
  obtain ⟨o', l', hsp', hc, -⟩ := step_ok op c c' h
  rw [hsp] at hsp'
  simp only [Option.some.injEq, Prod.mk.injEq] at hsp'
  obtain ⟨rfl, rfl⟩ := hsp'
  obtain ⟨x, y, hx, hy, hxy⟩ := hc.2.2.1 i h1 h2
  rw [hn, cell_assigned] at hxy
  rw [hx, hxy.1]

theorem solid_congr {c c' : List Field} (h : initFs c = initFs c') : SolidFs c ↔ SolidFs c' := by
  rw [← SolidFs_init, h, SolidFs_init]

/-- Two unconditional assignments can be exchanged. -/
theorem step_swap (a b : Op) (c c1 c2 : List Field) (ha : a.new = .assigned) (hb : b.new = .assigned) (hpa : a.path.size ≠ 0)
    (hpb : b.path.size ≠ 0) (hi : InvFs c) (hs : SolidFs c) (hh : HasFs c) (h1 : step a c = .ok c1) (h2 : step b c1 = .ok c2) :
    ∃ d, step b c = .ok d ∧ step a d = .ok c2 := by
  obtain ⟨oa, la, hsa, ca, ia⟩ := step_ok a c c1 h1
  obtain ⟨ob, lb, hsb, cb, ib⟩ := step_ok b c1 c2 h2
  have hfa := step_fresh a c c1 h1 ha
  have hfb := step_fresh b c1 c2 h2 hb
  have hs1 : SolidFs c1 := (solid_congr ia).2 hs
  have hi1 := step_inv a c c1 h1 (by rw [ha]; simp) hi hs hpa hfa
  have hh1 := step_has a c c1 h1 ha hs hh hpa
  have hi2 := step_inv b c1 c2 h2 (by rw [hb]; simp) hi1 hs1 hpb hfb
  have hh2 := step_has b c1 c2 h2 hb hs1 hh1 hpb
  have hsb' : opSpan b c = some (ob, lb) := by rw [← hsb]; exact (opSpan_congr b ia).symm
  have hdis : ∀ i, oa ≤ i → i < oa + la → ob ≤ i → i < ob + lb → False := by
    intro i g1 g2 g3 g4
    obtain ⟨x, y, hx, hy, hxy⟩ := ca.2.2.1 i g1 g2
    rw [ha, cell_assigned] at hxy
    have := hfb ob lb hsb i g3 g4
    rw [hy, hxy.2] at this
    simp at this
  have hfb' : OpFresh b c := by
    intro o l hsp i g1 g2
    rw [hsb'] at hsp
    simp only [Option.some.injEq, Prod.mk.injEq] at hsp
    obtain ⟨rfl, rfl⟩ := hsp
    have := hfb ob lb hsb i g1 g2
    rw [ca.2.2.2 i (fun hc => hdis i hc.1 hc.2 g1 g2)] at this
    exact this
  obtain ⟨d, hd⟩ := step_total b c hb hi hs hh hpb hfb' (by rw [hsb']; rfl)
  obtain ⟨ob2, lb2, hsb2, cd, id⟩ := step_ok b c d hd
  rw [hsb'] at hsb2
  simp only [Option.some.injEq, Prod.mk.injEq] at hsb2
  obtain ⟨rfl, rfl⟩ := hsb2
  have hsd : SolidFs d := (solid_congr id).2 hs
  have hid := step_inv b c d hd (by rw [hb]; simp) hi hs hpb hfb'
  have hhd := step_has b c d hd hb hs hh hpb
  have hsa' : opSpan a d = some (oa, la) := by rw [← hsa]; exact opSpan_congr a id
  have hfa' : OpFresh a d := by
    intro o l hsp i g1 g2
    rw [hsa'] at hsp
    simp only [Option.some.injEq, Prod.mk.injEq] at hsp
    obtain ⟨rfl, rfl⟩ := hsp
    rw [cd.2.2.2 i (fun hc => hdis i g1 g2 hc.1 hc.2)]
    exact hfa oa la hsa i g1 g2
  obtain ⟨e, he⟩ := step_total a d ha hid hsd hhd hpa hfa' (by rw [hsa']; rfl)
  obtain ⟨oa2, la2, hsa2, ce, ie⟩ := step_ok a d e he
  rw [hsa'] at hsa2
  simp only [Option.some.injEq, Prod.mk.injEq] at hsa2
  obtain ⟨rfl, rfl⟩ := hsa2
  have hie := step_inv a d e he (by rw [ha]; simp) hid hsd hpa hfa'
  have hhe := step_has a d e he ha hsd hhd hpa
  refine ⟨d, hd, ?_⟩
  rw [he]
  congr 1
  refine uniqFs e c2 ?_ ?_ hie hi2 hhe hh2
  · rw [ie, id, ib, ia]
  · apply List.ext_getElem?
    intro i
    by_cases ga : oa ≤ i ∧ i < oa + la
    · have gb : ¬ (ob ≤ i ∧ i < ob + lb) := fun hc => hdis i ga.1 ga.2 hc.1 hc.2
      obtain ⟨x, y, hx, hy, hxy⟩ := ca.2.2.1 i ga.1 ga.2
      obtain ⟨x', y', hx', hy', hxy'⟩ := ce.2.2.1 i ga.1 ga.2
      rw [ha, cell_assigned] at hxy hxy'
      rw [hy', cb.2.2.2 i gb, hy, hxy.2, hxy'.2]
    · by_cases gb : ob ≤ i ∧ i < ob + lb
      · obtain ⟨x, y, hx, hy, hxy⟩ := cb.2.2.1 i gb.1 gb.2
        obtain ⟨x', y', hx', hy', hxy'⟩ := cd.2.2.1 i gb.1 gb.2
        rw [hb, cell_assigned] at hxy hxy'
        rw [ce.2.2.2 i ga, hy', hy, hxy.2, hxy'.2]
      · rw [ce.2.2.2 i ga, cd.2.2.2 i gb, cb.2.2.2 i gb, ca.2.2.2 i ga]

theorem run_cons (a : Op) (l : List Op) (c c' : List Field) :
    run (a :: l) c = .ok c' ↔ ∃ d, step a c = .ok d ∧ run l d = .ok c' := by
  rw [run]
  rcases step a c with e | d <;> simp

/-- The order of unconditional assignments does not matter. -/
theorem run_perm {l l' : List Op} (h : l.Perm l') : ∀ (c c' : List Field), (∀ a ∈ l, a.new = .assigned ∧ a.path.size ≠ 0) →
    InvFs c → SolidFs c → HasFs c → run l c = .ok c' → run l' c = .ok c' := by
  induction h with
  | nil => intro c c' _ _ _ _ h; exact h
  | cons a hp ih =>
    intro c c' hall hi hs hh h
    obtain ⟨d, h1, h2⟩ := (run_cons ..).1 h
    have ha := hall a List.mem_cons_self
    obtain ⟨o, l, -, -, hin⟩ := step_ok a c d h1
    refine (run_cons ..).2 ⟨d, h1, ih d c' (fun x hx => hall x (List.mem_cons_of_mem _ hx)) ?_ ((solid_congr hin).2 hs) ?_ h2⟩
    · exact step_inv a c d h1 (by rw [ha.1]; simp) hi hs ha.2 (step_fresh a c d h1 ha.1)
    · exact step_has a c d h1 ha.1 hs hh ha.2
  | swap a b l =>
    intro c c' hall hi hs hh h
    obtain ⟨d, h1, h2⟩ := (run_cons ..).1 h
    obtain ⟨e, h3, h4⟩ := (run_cons ..).1 h2
    have ha := hall a (by simp)
    have hb := hall b (by simp)
    obtain ⟨d', g1, g2⟩ := step_swap b a c d e hb.1 ha.1 hb.2 ha.2 hi hs hh h1 h3
    exact (run_cons ..).2 ⟨d', g1, (run_cons ..).2 ⟨e, g2, h4⟩⟩
  | trans hp hq ih1 ih2 =>
    intro c c' hall hi hs hh h
    exact ih2 c c' (fun x hx => hall x (hp.mem_iff.2 hx)) hi hs hh (ih1 c c' hall hi hs hh h)

theorem run_inv : ∀ (ops : List Op) (c c' : List Field), run ops c = .ok c' → (∀ a ∈ ops, a.new = .assigned ∧ a.path.size ≠ 0) →
    InvFs c → SolidFs c → HasFs c → InvFs c' ∧ HasFs c' ∧ initFs c' = initFs c
  | [], c, c', h, _, hi, _, hh => by simp only [run, Except.ok.injEq] at h; subst h; exact ⟨hi, hh, rfl⟩
  | a :: ops, c, c', h, hall, hi, hs, hh => by
    obtain ⟨d, h1, h2⟩ := (run_cons ..).1 h
    have ha := hall a List.mem_cons_self
    obtain ⟨o, l, -, -, hin⟩ := step_ok a c d h1
    obtain ⟨g1, g2, g3⟩ := run_inv ops d c' h2 (fun x hx => hall x (List.mem_cons_of_mem _ hx))
      (step_inv a c d h1 (by rw [ha.1]; simp) hi hs ha.2 (step_fresh a c d h1 ha.1)) ((solid_congr hin).2 hs)
      (step_has a c d h1 ha.1 hs hh ha.2)
    exact ⟨g1, g2, g3.trans hin⟩

/-- Two assignments concern different signals. -/
def Apart (c : List Field) (a b : Op) : Prop :=
  ∀ o l o' l', opSpan a c = some (o, l) → opSpan b c = some (o', l') → o + l ≤ o' ∨ o' + l' ≤ o

/-- Assignments, possibly under conditions, with different signals each. -/
theorem run_inv_apart : ∀ (ops : List Op) (c c' : List Field), run ops c = .ok c' →
    (∀ a ∈ ops, a.new ≠ .noAssigned ∧ a.path.size ≠ 0) → InvFs c → SolidFs c → ops.Pairwise (Apart c) →
    (∀ a ∈ ops, OpFresh a c) → InvFs c'
  | [], c, c', h, _, hi, _, _, _ => by simp only [run, Except.ok.injEq] at h; subst h; exact hi
  | a :: ops, c, c', h, hall, hi, hs, hap, hfr => by
    obtain ⟨d, h1, h2⟩ := (run_cons ..).1 h
    have ha := hall a List.mem_cons_self
    obtain ⟨o, l, hsp, hc, hin⟩ := step_ok a c d h1
    rw [List.pairwise_cons] at hap
    refine run_inv_apart ops d c' h2 (fun x hx => hall x (List.mem_cons_of_mem _ hx))
      (step_inv a c d h1 ha.1 hi hs ha.2 (hfr a List.mem_cons_self)) ((solid_congr hin).2 hs) ?_ ?_
    · refine hap.2.imp ?_
      intro x y hxy o l o' l' e1 e2
      rw [opSpan_congr x hin] at e1
      rw [opSpan_congr y hin] at e2
      exact hxy o l o' l' e1 e2
    · intro x hx o' l' e i g1 g2
      rw [opSpan_congr x hin] at e
      have := hap.1 x hx o l o' l' hsp e
      rw [hc.2.2.2 i (by omega)]
      exact hfr x (List.mem_cons_of_mem _ hx) o' l' e i g1 g2

theorem fresh_init (a : Op) (c : List Field) : OpFresh a (initFs c) := by
  intro o l hsp i g1 g2
  rw [flatFs_init, List.getElem?_replicate]
  rw [opSpan_init] at hsp
  have : o + l ≤ (flatFs c).length := by
    unfold opSpan at hsp
    split at hsp
    · cases hsp
    · rename_i f hf
      split at hsp
      · cases hsp
      · rename_i o' l' hq
        simp only [Option.some.injEq, Prod.mk.injEq] at hsp
        have h1 := span_le _ _ _ _ hq
        rw [flat_at hf]
        simp only [List.length_append]
        omega
  rw [if_pos (by omega)]

/-- Unconditional non-empty assignments never lower a counter below zero. -/
theorem step_error (op : Op) (c : List Field) (hn : op.new = .assigned) (hi : InvFs c) (hs : SolidFs c) (hh : HasFs c)
    (hp : op.path.size ≠ 0) (h : ¬ ∃ c', step op c = .ok c') : (opSpan op c).isNone ∨ ¬ OpFresh op c := by
  by_contra hc
  rw [not_or, not_not] at hc
  refine h (step_total op c hn hi hs hh hp hc.2 ?_)
  cases hq : opSpan op c with
  | none => exact absurd (by rw [hq]; rfl) hc.1
  | some _ => rfl

theorem delayed_perm (c : List Field) (ops : List Op) : (delayed c ops).Perm ops := by
  induction ops with
  | nil => exact .refl _
  | cons a ops ih =>
    unfold delayed at ih ⊢
    cases h1 : isSig c a <;> cases h2 : isWhole a
    · simp only [List.filter_cons, h1, h2, Bool.not_false, Bool.not_true, Bool.and_true, Bool.and_false, Bool.false_eq_true,
        if_false, if_true]
      exact (List.perm_middle).trans (ih.cons a)
    · simp only [List.filter_cons, h1, h2, Bool.not_false, Bool.not_true, Bool.and_true, Bool.and_false, Bool.false_eq_true,
        if_false, if_true]
      rw [List.append_assoc, List.cons_append]
      rw [List.append_assoc] at ih
      exact (List.perm_middle).trans (ih.cons a)
    · simp only [List.filter_cons, h1, h2, Bool.not_false, Bool.not_true, Bool.and_true, Bool.and_false, Bool.false_and,
        Bool.false_eq_true, if_false, if_true]
      exact ih.cons a
    · simp only [List.filter_cons, h1, h2, Bool.not_false, Bool.not_true, Bool.and_true, Bool.and_false, Bool.false_and,
        Bool.false_eq_true, if_false, if_true]
      exact ih.cons a

end Verif.Fill
