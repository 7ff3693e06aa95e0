import Verif.ArrExecLemmas

/-!
The symbolic execution on arrays against the concrete one: statements.
-/

set_option linter.unusedSimpArgs false
set_option linter.unusedVariables false
set_option linter.unusedSectionVars false

namespace Verif.ArrExec

open Verif.ModArith Verif.Algebra Verif.Memory
open Verif.Exec (Op UOp V applyOp applyUOp cOp cUOp envGet envSet envAdd blockGet blockSet RelV rho
  applyOp_rel applyUOp_rel envGet_rel envSet_rel equality_spec)

variable {p : Nat} {w : Nat → Int}

theorem par_map_one {s : Ax (Slice V)} {t : Ax (Slice Int)}
    (h : ∀ a b, s = .ok a → t = .ok b → RelS p w a b) {L : List (Slice V)} {M : List (Slice Int)}
    (hs : s.map ([·]) = .ok L) (ht : t.map ([·]) = .ok M) : List.Forall₂ (RelS p w) L M := by
  obtain ⟨a, ha, rfl⟩ := map_one hs
  obtain ⟨b, hb, rfl⟩ := map_one ht
  exact .cons (h a b ha hb) .nil

theorem readAt_rel {s : Slice V} {t : Slice Int} (h : RelS p w s t) {n : Nat} {pos : Option (List Nat)}
    {is : List Nat} (hpos : pos = none ∨ pos = some is) (hn : is.length = n) {L : List (Slice V)}
    {M : List (Slice Int)} (hs : readAt true s n pos = .ok L) (ht : (access t is).map ([·]) = .ok M) :
    List.Forall₂ (RelS p w) L M := by
  rcases hpos with rfl | rfl
  · simp only [readAt, Bool.true_and, decide_eq_true_eq] at hs
    split at hs
    · cases hs
    · rename_i hlen
      cases hs
      have hlen : n = s.route.length := by simpa using hlen
      obtain ⟨r, hr, rfl⟩ := map_one ht
      obtain ⟨g1, g2, g3⟩ := access_shape h.conc hr
      have hroute : r.route = [] := by
        rw [g3, hn, hlen, h.rs.1, List.drop_length]
      have hcells : ∀ c ∈ r.values, 0 ≤ c ∧ c < p := by
        unfold access at hr
        split at hr
        · cases hr
        · cases hr
        · rename_i x hx; cases hr; exact accessValues_all h.cells hx
      have := RelS.unknown (w := w) g1 hcells
      rw [hroute] at this
      exact .cons this .nil
  · exact par_map_one (fun a b ha hb =>
      ⟨(access_rel h.rs is).ok ha hb, (access_shape h.shaped ha).1⟩) hs ht

theorem signals_rel (hw : ∀ s, 0 ≤ w s ∧ w s < p) (s : Nat) (dims : List Nat) :
    RelS p w (signalSlice s dims) (cSignals w s dims) := by
  refine ⟨⟨rfl, ?_⟩, by simp [Shaped, signalSlice]⟩
  simp only [signalSlice, cSignals]
  generalize List.range dims.prod = l
  induction l with
  | nil => exact .nil
  | cons a l ih => exact .cons ⟨hw _, trivial, .inr rfl, by intro v hv; cases hv⟩ ih

/-- Evaluation is sound as long as no array is replaced by a single cell. -/
theorem eval_rel (hp : 1 < p) (hw : ∀ s, 0 ≤ w s ∧ w s < p) (h1 : w 0 = 1)
    {env : List (List (Nat × Slice V))} {c : CEnv} (hE : RelE p w env c) (e : AExp) (hl : e.Lits p)
    {L : List (Slice V)} {M : List (Slice Int)} (ha : eval true p env e = .ok L)
    (hc : cEval p w c e = .ok M) : List.Forall₂ (RelS p w) L M := by
  have hρ : rho p w (default : Nat) = 1 := by
    show ((w 0 : Int) : ZMod p) = 1
    rw [h1]; simp
  induction e generalizing L M with
  | num v => cases ha; cases hc; exact .cons (RelS.one (RelV.num hl)) .nil
  | sig s dims is ih =>
    simp only [eval] at ha
    simp only [cEval] at hc
    cases hj : eval true p env is with
    | error x => rw [hj] at ha; cases ha
    | ok js =>
    cases hj' : cEval p w c is with
    | error x => rw [hj'] at hc; cases hc
    | ok js' =>
    rw [hj] at ha; rw [hj'] at hc
    simp only at ha hc
    cases hv : singles js with
    | error x => rw [hv] at ha; cases ha
    | ok vs =>
    cases hv' : singles js' with
    | error x => rw [hv'] at hc; cases hc
    | ok vs' =>
    rw [hv] at ha; rw [hv'] at hc
    simp only at ha hc
    have hr := singles_rel (ih hl hj hj') hv hv'
    cases hq : position vs with
    | error x => rw [hq] at ha; cases ha
    | ok pos =>
    cases hq' : cPosition vs' with
    | error x => rw [hq'] at hc; cases hc
    | ok is' =>
    rw [hq] at ha; rw [hq'] at hc
    simp only at ha hc
    obtain ⟨g1, g2⟩ := position_rel hr hq hq'
    exact readAt_rel (signals_rel hw s dims) g1 g2 ha hc
  | var x is ih =>
    simp only [eval] at ha
    simp only [cEval] at hc
    cases hj : eval true p env is with
    | error x => rw [hj] at ha; cases ha
    | ok js =>
    cases hj' : cEval p w c is with
    | error x => rw [hj'] at hc; cases hc
    | ok js' =>
    rw [hj] at ha; rw [hj'] at hc
    simp only at ha hc
    cases hv : singles js with
    | error x => rw [hv] at ha; cases ha
    | ok vs =>
    cases hv' : singles js' with
    | error x => rw [hv'] at hc; cases hc
    | ok vs' =>
    rw [hv] at ha; rw [hv'] at hc
    simp only at ha hc
    have hr := singles_rel (ih hl hj hj') hv hv'
    cases hq : position vs with
    | error x => rw [hq] at ha; cases ha
    | ok pos =>
    cases hq' : cPosition vs' with
    | error x => rw [hq'] at hc; cases hc
    | ok is' =>
    rw [hq] at ha; rw [hq'] at hc
    simp only at ha hc
    obtain ⟨g1, g2⟩ := position_rel hr hq hq'
    rcases envGet_rel hE x with ⟨f1, _⟩ | ⟨s, t, f1, f2, f3⟩
    · rw [f1] at ha; cases ha
    · rw [f1] at ha; rw [f2] at hc
      exact readAt_rel f3 g1 g2 ha hc
  | bin o l r ihl ihr =>
    simp only [eval] at ha
    simp only [cEval] at hc
    cases hx : eval true p env l with
    | error x => rw [hx] at ha; cases ha
    | ok ls =>
    cases hy : eval true p env r with
    | error x => rw [hx, hy] at ha; cases ha
    | ok rs =>
    cases hx' : cEval p w c l with
    | error x => rw [hx'] at hc; cases hc
    | ok ls' =>
    cases hy' : cEval p w c r with
    | error x => rw [hx', hy'] at hc; cases hc
    | ok rs' =>
    rw [hx, hy] at ha; rw [hx', hy'] at hc
    simp only at ha hc
    split at ha
    · rename_i a b ea eb
      split at hc
      · rename_i a' b' ea' eb'
        cases singles_rel (ihl hl.1 hx hx') ea ea' with
        | cons ra _ =>
        cases singles_rel (ihr hl.2 hy hy') eb eb' with
        | cons rb _ =>
        split at ha
        · cases ha
        · rename_i v hv
          split at hc
          · cases hc
          · rename_i v' hv'
            cases ha; cases hc
            exact .cons (RelS.one (applyOp_rel hp hρ o ra rb hv hv')) .nil
      · cases hc
    · cases ha
  | un o e ih =>
    simp only [eval] at ha
    simp only [cEval] at hc
    cases hx : eval true p env e with
    | error x => rw [hx] at ha; cases ha
    | ok ls =>
    cases hx' : cEval p w c e with
    | error x => rw [hx'] at hc; cases hc
    | ok ls' =>
    rw [hx] at ha; rw [hx'] at hc
    simp only at ha hc
    split at ha
    · rename_i a ea
      split at hc
      · rename_i a' ea'
        cases singles_rel (ih hl hx hx') ea ea' with
        | cons ra _ =>
        cases ha; cases hc
        exact .cons (RelS.one (applyUOp_rel hp hρ o ra)) .nil
      · cases hc
    · cases ha
  | sw c0 a b ihc iha ihb =>
    obtain ⟨l1, l2, l3⟩ := hl
    simp only [eval] at ha
    simp only [cEval] at hc
    cases hx : eval true p env c0 with
    | error x => rw [hx] at ha; cases ha
    | ok ls =>
    cases hx' : cEval p w c c0 with
    | error x => rw [hx'] at hc; cases hc
    | ok ls' =>
    rw [hx] at ha; rw [hx'] at hc
    simp only at ha hc
    split at ha
    · rename_i v ev
      split at hc
      · rename_i v' ev'
        cases singles_rel (ihc l1 hx hx') ev ev' with
        | cons rv _ =>
        split at ha
        · rename_i hb
          rw [if_pos (getBool_rel rv hb)] at hc
          exact iha l2 (onlyOne_ok ha).1 (onlyOne_ok hc).1
        · rename_i hb
          rw [if_neg (by rw [getBool_rel rv hb]; simp)] at hc
          exact ihb l3 (onlyOne_ok ha).1 (onlyOne_ok hc).1
        · split at ha
          · cases ha
          · rename_i hb hlost
            cases ha
            simp only [Bool.true_and, decide_eq_true_eq, ne_eq, not_or, Classical.not_not] at hlost
            obtain ⟨na, nb⟩ := hlost
            rw [nd_rel hE] at na nb
            have key : ∀ (e : AExp), e.Lits p → nd c e = some 0 → onlyOne (cEval p w c e) = .ok M →
                List.Forall₂ (RelS p w) [unknownCell] M := by
              intro e hle hn he
              obtain ⟨he, s, rfl⟩ := onlyOne_ok he
              obtain ⟨s', rest, e1, e2⟩ := cEval_nd hE.shaped e hn he
              cases e1
              obtain ⟨g1, g2⟩ := cEval_good hp hw hE.good e hle he s (.head _)
              have := RelS.unknown (w := w) g1 g2
              rw [List.length_eq_zero_iff.1 e2] at this
              exact .cons this .nil
            split at hc
            · exact key a l2 na hc
            · exact key b l3 nb hc
      · cases hc
    · cases ha
  | arr es ih =>
    simp only [eval] at ha
    simp only [cEval] at hc
    cases hx : eval true p env es with
    | error x => rw [hx] at ha; cases ha
    | ok ls =>
    cases hx' : cEval p w c es with
    | error x => rw [hx'] at hc; cases hc
    | ok ls' =>
    rw [hx] at ha; rw [hx'] at hc
    simp only at ha hc
    have hr := ih hl hx hx'
    refine par_map_one (fun a b h2 h3 => ⟨(inlineArray_rel (hr.imp fun _ _ h => h.rs) ?_).ok h2 h3,
      (inlineArray_shape h2).1⟩) ha hc
    exact RelV.num ⟨le_refl _, by omega⟩
  | uni v n ihv ihn =>
    simp only [eval] at ha
    simp only [cEval] at hc
    cases hx : eval true p env n with
    | error x => rw [hx] at ha; cases ha
    | ok ls =>
    cases hx' : cEval p w c n with
    | error x => rw [hx'] at hc; cases hc
    | ok ls' =>
    rw [hx] at ha; rw [hx'] at hc
    simp only at ha hc
    split at ha
    · rename_i k ek
      split at hc
      · rename_i k' ek'
        cases singles_rel (ihn hl.2 hx hx') ek ek' with
        | cons rk _ =>
        split at ha
        · cases ha
        · rename_i m hm
          rw [getUsize_rel rk hm] at hc
          simp only at hc
          cases hy : eval true p env v with
          | error x => rw [hy] at ha; cases ha
          | ok vs =>
          cases hy' : cEval p w c v with
          | error x => rw [hy'] at hc; cases hc
          | ok vs' =>
          rw [hy] at ha; rw [hy'] at hc
          simp only at ha hc
          cases ho : getOne vs with
          | error x => rw [ho] at ha; cases ha
          | ok s =>
          cases ho' : getOne vs' with
          | error x => rw [ho'] at hc; cases hc
          | ok t =>
          rw [ho] at ha; rw [ho'] at hc
          simp only at ha hc
          have hr := ihv hl.1 hy hy'
          rw [getOne_ok ho, getOne_ok ho'] at hr
          cases hr with
          | cons hst _ =>
          refine par_map_one (fun a b h2 h3 => ⟨(uniformArray_rel hst.rs ?_ m).ok h2 h3,
            (uniformArray_shape h2).1⟩) ha hc
          exact RelV.nonQuadratic ⟨le_refl _, by omega⟩
      · cases hc
    · cases ha
  | nil => cases ha; cases hc; exact .nil
  | cons e es ihe ihes =>
    simp only [eval] at ha
    simp only [cEval] at hc
    cases hx : eval true p env e with
    | error x => rw [hx] at ha; cases ha
    | ok ls =>
    cases hx' : cEval p w c e with
    | error x => rw [hx'] at hc; cases hc
    | ok ls' =>
    rw [hx] at ha; rw [hx'] at hc
    simp only at ha hc
    cases ho : getOne ls with
    | error x => rw [ho] at ha; cases ha
    | ok s =>
    cases ho' : getOne ls' with
    | error x => rw [ho'] at hc; cases hc
    | ok t =>
    rw [ho] at ha; rw [ho'] at hc
    simp only at ha hc
    have hr := ihe hl.1 hx hx'
    rw [getOne_ok ho, getOne_ok ho'] at hr
    cases hr with
    | cons hst _ =>
    cases hy : eval true p env es with
    | error x => rw [hy] at ha; cases ha
    | ok vs =>
    cases hy' : cEval p w c es with
    | error x => rw [hy'] at hc; cases hc
    | ok vs' =>
    rw [hy] at ha; rw [hy'] at hc
    cases ha; cases hc
    exact .cons hst (ihes hl.2 hy hy')

/-! ### Branches that are not taken -/

/-- Cells are kept or become unknown. -/
def SmV (a b : V) : Prop := b = a ∨ b = .nonQuadratic

def SmE (A B : List (List (Nat × Slice V))) : Prop :=
  List.Forall₂ (List.Forall₂ (fun a b => a.1 = b.1 ∧ RS SmV a.2 b.2)) A B

theorem SmV.refl (a : V) : SmV a a := .inl rfl

theorem SmV.trans (a b c : V) (h1 : SmV a b) (h2 : SmV b c) : SmV a c := by
  rcases h2 with rfl | rfl
  · exact h1
  · exact .inr rfl

theorem RS.refl_sm (s : Slice V) : RS SmV s s := ⟨rfl, List.forall₂_same.2 fun x _ => SmV.refl x⟩

theorem SmE.refl (A : List (List (Nat × Slice V))) : SmE A A :=
  List.forall₂_same.2 fun b _ => List.forall₂_same.2 fun x _ => ⟨rfl, RS.refl_sm x.2⟩

theorem SmE.trans {A B C : List (List (Nat × Slice V))} (h1 : SmE A B) (h2 : SmE B C) : SmE A C :=
  forall₂_trans_of (fun _ _ _ => forall₂_trans_of fun _ _ _ x y =>
    ⟨x.1.trans y.1, x.2.1.trans y.2.1, forall₂_trans_of SmV.trans x.2.2 y.2.2⟩) h1 h2

theorem SmE.tail {A B : List (List (Nat × Slice V))} (h : SmE A B) : SmE A.tail B.tail := by
  cases h with
  | nil => exact .nil
  | cons _ h => exact h

theorem RelE.tail {A : List (List (Nat × Slice V))} {c : CEnv} (h : RelE p w A c) :
    RelE p w A.tail c.tail := by
  cases h with
  | nil => exact .nil
  | cons _ h => exact h

theorem relS_smash {s s' : Slice V} {t : Slice Int} (h : RelS p w s t) (hs : RS SmV s s') :
    RelS p w s' t := by
  refine ⟨⟨hs.1.symm.trans h.rs.1, ?_⟩, ?_⟩
  · obtain ⟨_, h2⟩ := hs
    have h1 := h.rs.2
    generalize s.values = a at *
    generalize s'.values = b at *
    generalize t.values = c at *
    clear h
    induction h2 generalizing c with
    | nil => exact h1
    | cons x _ ih =>
      cases h1 with
      | cons y z =>
        refine .cons ?_ (ih _ z)
        rcases x with rfl | rfl
        · exact y
        · exact RelV.nonQuadratic y.canon
  · have := h.shaped
    unfold Shaped at *
    rw [← hs.1, ← this, hs.2.length_eq]

theorem relB_smash {b b' : List (Nat × Slice V)} {d : List (Nat × Slice Int)}
    (h : List.Forall₂ (fun a c => a.1 = c.1 ∧ RelS p w a.2 c.2) b d)
    (hs : List.Forall₂ (fun a b => a.1 = b.1 ∧ RS SmV a.2 b.2) b b') :
    List.Forall₂ (fun a c => a.1 = c.1 ∧ RelS p w a.2 c.2) b' d := by
  induction hs generalizing d with
  | nil => exact h
  | cons x _ ih =>
    cases h with
    | cons y z => exact .cons ⟨x.1.symm.trans y.1, relS_smash y.2 x.2⟩ (ih z)

theorem relE_smash {A B : List (List (Nat × Slice V))} {c : CEnv} (h : RelE p w A c) (hs : SmE A B) :
    RelE p w B c := by
  unfold RelE SmE at *
  induction hs generalizing c with
  | nil => exact h
  | cons hb _ ih =>
    cases h with
    | cons h1 h2 => exact .cons (relB_smash h1 hb) (ih h2)

theorem blockSet_sm {b b' : List (Nat × Slice V)} {x : Nat} {s s' : Slice V}
    (hg : blockGet b x = some s) (hs : RS SmV s s') (h : blockSet b x s' = some b') :
    List.Forall₂ (fun a b => a.1 = b.1 ∧ RS SmV a.2 b.2) b b' := by
  induction b generalizing b' with
  | nil => cases hg
  | cons a b ih =>
    obtain ⟨y, v⟩ := a
    simp only [blockGet] at hg
    simp only [blockSet] at h
    split at hg
    · rename_i hy
      rw [if_pos hy] at h
      cases hg; cases h
      exact .cons ⟨rfl, hs⟩ (List.forall₂_same.2 fun x _ => ⟨rfl, RS.refl_sm x.2⟩)
    · rename_i hy
      rw [if_neg hy] at h
      cases hx : blockSet b x s' with
      | none => rw [hx] at h; cases h
      | some r => rw [hx] at h; cases h; exact .cons ⟨rfl, RS.refl_sm v⟩ (ih hg hx)

theorem blockSet_none {b : List (Nat × Slice V)} {x : Nat} {s' : Slice V} :
    blockSet b x s' = none ↔ blockGet b x = none := by
  induction b with
  | nil => simp [blockSet, blockGet]
  | cons a b ih =>
    obtain ⟨y, v⟩ := a
    simp only [blockSet, blockGet]
    split
    · simp
    · simp [ih]

theorem envSet_sm {A A' : List (List (Nat × Slice V))} {x : Nat} {s s' : Slice V}
    (hg : envGet A x = some s) (hs : RS SmV s s') (h : envSet A x s' = some A') : SmE A A' := by
  induction A generalizing A' with
  | nil => cases hg
  | cons b A ih =>
    simp only [envGet] at hg
    simp only [envSet] at h
    cases hb : blockGet b x with
    | none =>
      rw [hb] at hg
      rw [blockSet_none.2 hb] at h
      simp only at h hg
      cases hx : envSet A x s' with
      | none => rw [hx] at h; cases h
      | some r =>
        rw [hx] at h; cases h
        exact .cons (List.forall₂_same.2 fun x _ => ⟨rfl, RS.refl_sm x.2⟩) (ih hg hx)
    | some t =>
      rw [hb] at hg
      cases hg
      cases hx : blockSet b x s' with
      | none => rw [blockSet_none.1 hx] at hb; cases hb
      | some b' =>
        rw [hx] at h; cases h
        exact .cons (blockSet_sm hb hs hx) (SmE.refl A)

theorem newWithRoute_unknown (route : List Nat) :
    ∀ v ∈ (newWithRoute route (AExpr.nonQuadratic : V)).values, v = .nonQuadratic := by
  intro v hv
  exact List.eq_of_mem_replicate hv

theorem writeAt_sm {s v s' : Slice V} {pos : Option (List Nat)} (h : writeAt true s v pos = .ok s') :
    RS SmV s s' := by
  cases pos with
  | none =>
    exact insertVoid_keeps SmV.refl SmV.trans (P := fun v => v = .nonQuadratic)
      (fun a v hv => .inr hv) (newWithRoute_unknown _) h
  | some is =>
    simp only [writeAt, if_true] at h
    exact insertVoid_keeps SmV.refl SmV.trans (P := fun v => v = .nonQuadratic)
      (fun a v hv => .inr hv) (newWithRoute_unknown _) h

/-- What a statement may change in a branch of an unknown condition: cells of the variables outside
its own block become unknown. -/
structure Forgets (a b : ASt) : Prop where
  env : SmE a.env.tail b.env.tail
  unknown : b.unknown = true
  cons : b.cons = a.cons

theorem inBlock_forgets {body : ASt → Ax ASt}
    (hb : ∀ st st', st.unknown = true → body st = .ok st' → Forgets st st') {st st' : ASt}
    (hu : st.unknown = true) (h : inBlock body st = .ok st') :
    SmE st.env st'.env ∧ st'.unknown = true ∧ st'.cons = st.cons := by
  unfold inBlock at h
  split at h
  · cases h
  · rename_i st1 h1
    cases h
    obtain ⟨g1, g2, g3⟩ := hb { st with env := [] :: st.env } st1 hu h1
    exact ⟨g1, g2, g3⟩

theorem exec_forgets (strict : Bool) (fuel : Nat) (field : Int) : ∀ (s : AStmt) (st st' : ASt),
    st.unknown = true → exec strict fuel field s st = .ok st' → Forgets st st' := by
  intro s
  induction s with
  | skip => intro st st' hu h; cases h; exact ⟨SmE.refl _, hu, rfl⟩
  | decl x ds =>
    intro st st' hu h
    simp only [exec] at h
    split at h
    · cases h
    · split at h
      · cases h
      · split at h
        · cases h
        · split at h
          · cases h
          · split at h
            · cases h
            · rename_i env he
              cases h
              refine ⟨?_, hu, rfl⟩
              cases hx : st.env with
              | nil => rw [hx] at he; cases he
              | cons b bs => rw [hx] at he; cases he; exact SmE.refl _
  | assign x is e =>
    intro st st' hu h
    simp only [exec] at h
    split at h
    · cases h
    · split at h
      · cases h
      · split at h
        · cases h
        · split at h
          · cases h
          · split at h
            · cases h
            · split at h
              · cases h
              · rename_i s hs
                split at h
                · cases h
                · rename_i s' hw
                  split at h
                  · cases h
                  · rename_i env he
                    cases h
                    rw [hu] at hw
                    exact ⟨(envSet_sm hs (writeAt_sm hw) he).tail, hu, rfl⟩
  | cassign s dims is e =>
    intro st st' hu h
    simp only [exec] at h
    split at h
    · cases h
    · split at h
      · cases h
      · split at h
        · cases h
        · cases h
        · split at h
          · cases h
          · split at h
            · cases h
            · split at h
              · cases h
              · split at h
                · cases h
                · rw [if_pos hu] at h; cases h
  | check l r =>
    intro st st' hu h
    simp only [exec] at h
    rw [if_pos hu] at h
    cases h
  | seq a b iha ihb =>
    intro st st' hu h
    simp only [exec] at h
    split at h
    · cases h
    · rename_i st1 h1
      obtain ⟨g1, g2, g3⟩ := iha st st1 hu h1
      obtain ⟨f1, f2, f3⟩ := ihb st1 st' g2 h
      exact ⟨g1.trans f1, f2, f3.trans g3⟩
  | ite c t e iht ihe =>
    intro st st' hu h
    simp only [exec] at h
    split at h
    · cases h
    · obtain ⟨g1, g2, g3⟩ := inBlock_forgets iht hu h
      exact ⟨g1.tail, g2, g3⟩
    · obtain ⟨g1, g2, g3⟩ := inBlock_forgets ihe hu h
      exact ⟨g1.tail, g2, g3⟩
    · split at h
      · cases h
      · rename_i st1 h1
        split at h
        · cases h
        · rename_i st2 h2
          cases h
          obtain ⟨g1, g2, g3⟩ := inBlock_forgets iht rfl h1
          obtain ⟨f1, f2, f3⟩ := inBlock_forgets ihe g2 h2
          exact ⟨(g1.trans f1).tail, hu, f3.trans g3⟩
  | loop c b ih =>
    intro st st' hu h
    simp only [exec] at h
    have key : ∀ (n : Nat) (st st' : ASt), st.unknown = true →
        loopKnown (condition strict field c) (inBlock (exec strict fuel field b)) n st = .ok st' →
        Forgets st st' := by
      intro n
      induction n with
      | zero => intro st st' _ h; cases h
      | succ n ihn =>
        intro st st' hu h
        simp only [loopKnown] at h
        split at h
        · cases h
        · cases h
        · cases h; exact ⟨SmE.refl _, hu, rfl⟩
        · split at h
          · cases h
          · rename_i st1 h1
            obtain ⟨g1, g2, g3⟩ := inBlock_forgets ih hu h1
            obtain ⟨f1, f2, f3⟩ := ihn st1 st' g2 h
            exact ⟨g1.tail.trans f1, f2, f3.trans g3⟩
    exact key fuel st st' hu h
  | block b ih =>
    intro st st' hu h
    simp only [exec] at h
    obtain ⟨g1, g2, g3⟩ := inBlock_forgets ih hu h
    exact ⟨g1.tail, g2, g3⟩

/-! ### Execution -/

theorem equalities_spec (hp : 1 < p) (hw : ∀ s, 0 ≤ w s ∧ w s < p) (h1 : w 0 = 1) :
    ∀ {ls rs : List V} {as bs : List Int} {ks : List (Constraint Nat)},
      List.Forall₂ (RelV p (rho p w)) ls as → List.Forall₂ (RelV p (rho p w)) rs bs →
      equalities p ls rs = .ok ks →
      ((∀ k ∈ ks, k.Holds (rho p w)) ↔ ∀ q ∈ as.zip bs, q.1 = q.2) := by
  intro ls
  induction ls with
  | nil =>
    intro rs as bs ks hl hr h
    cases hl; cases h
    simp
  | cons l ls ih =>
    intro rs as bs ks hl hr h
    cases hl with
    | cons hla hl =>
    cases hr with
    | nil => cases h
    | cons hrb hr =>
    simp only [equalities] at h
    split at h
    · cases h
    · rename_i d hd
      split at h
      · cases h
      · rename_i k hk
        cases hx : equalities p ls _ with
        | error e => rw [hx] at h; cases h
        | ok ks' =>
          rw [hx] at h; cases h
          have e1 := equality_spec hp hw h1 hla hrb hd hk
          have e2 := ih hl hr hx
          simp only [List.mem_cons, forall_eq_or_imp, List.zip_cons_cons]
          rw [e1, e2]

/-- What relates the two executions of a statement. -/
structure Step (p : Nat) (w : Nat → Int) (st st' : ASt) (c' : CEnv) (tr : List (Int × Int)) : Prop where
  env : RelE p w st'.env c'
  unknown : st'.unknown = st.unknown
  cons : ∃ new, st'.cons = st.cons ++ new ∧
    ((∀ k ∈ new, k.Holds (rho p w)) ↔ ∀ q ∈ tr, q.1 = q.2)

theorem Step.quiet {st st' : ASt} {c' : CEnv} (h : RelE p w st'.env c') (hu : st'.unknown = st.unknown)
    (hc : st'.cons = st.cons) : Step p w st st' c' [] :=
  ⟨h, hu, [], by simp [hc], by simp⟩

theorem Step.trans {a b d : ASt} {c1 c2 : CEnv} {t1 t2 : List (Int × Int)} (h1 : Step p w a b c1 t1)
    (h2 : Step p w b d c2 t2) : Step p w a d c2 (t1 ++ t2) := by
  obtain ⟨n1, e1, f1⟩ := h1.cons
  obtain ⟨n2, e2, f2⟩ := h2.cons
  refine ⟨h2.env, h2.unknown.trans h1.unknown, n1 ++ n2, by rw [e2, e1, List.append_assoc], ?_⟩
  simp only [List.mem_append, or_imp, forall_and]
  rw [f1, f2]

theorem inBlock_step {body : ASt → Ax ASt} {cbody : CEnv → Ax (CEnv × List (Int × Int))}
    (hb : ∀ st st' c c' tr, RelE p w st.env c → body st = .ok st' → cbody c = .ok (c', tr) →
      Step p w st st' c' tr) {st st' : ASt} {c c' : CEnv} {tr : List (Int × Int)}
    (hE : RelE p w st.env c) (h : inBlock body st = .ok st') (hc : cBlock cbody c = .ok (c', tr)) :
    Step p w st st' c' tr := by
  unfold inBlock at h
  unfold cBlock at hc
  split at h
  · cases h
  · rename_i st1 h1
    split at hc
    · cases hc
    · rename_i env1 tr1 h2
      cases h; cases hc
      obtain ⟨g1, g2, g3⟩ := hb { st with env := [] :: st.env } st1 ([] :: c) _ _ (.cons .nil hE) h1 h2
      exact ⟨g1.tail, g2, g3⟩

theorem condition_rel (hp : 1 < p) (hw : ∀ s, 0 ≤ w s ∧ w s < p) (h1 : w 0 = 1) {e : AExp}
    (hl : e.Lits p) {st : ASt} {c : CEnv} (hE : RelE p w st.env c) {b : Bool} {b' : Bool}
    (h : condition true p e st = .ok (some b)) (hc : cCondition p w e c = .ok b') : b' = b := by
  unfold condition at h
  unfold cCondition at hc
  cases hx : eval true p st.env e with
  | error x => rw [hx] at h; cases h
  | ok ls =>
  cases hx' : cEval p w c e with
  | error x => rw [hx'] at hc; cases hc
  | ok ls' =>
  rw [hx] at h; rw [hx'] at hc
  simp only at h hc
  split at h
  · rename_i v ev
    split at hc
    · rename_i v' ev'
      cases singles_rel (eval_rel hp hw h1 hE e hl hx hx') ev ev' with
      | cons rv _ =>
      injection h with h
      injection hc with hc
      rw [← hc, getBool_rel rv h]
    · cases hc
  · cases h

theorem usizes_exact {vs : List V} {cs : List Int} (h : List.Forall₂ (RelV p (rho p w)) vs cs)
    {is : List Nat} (hs : vs.mapM getUsize = some is) : cs.mapM toUsize = some is := usizes_rel h hs

/-- Soundness of the execution while no array is replaced by a single cell. -/
theorem exec_step (hp : 1 < p) (hw : ∀ s, 0 ≤ w s ∧ w s < p) (h1 : w 0 = 1) (fuel cfuel : Nat) :
    ∀ (s : AStmt), s.Lits p → ∀ (st st' : ASt) (c c' : CEnv) (tr : List (Int × Int)),
      RelE p w st.env c → exec true fuel p s st = .ok st' → run cfuel p w s c = .ok (c', tr) →
      Step p w st st' c' tr := by
  intro s
  induction s with
  | skip => intro _ st st' c c' tr hE h hc; cases h; cases hc; exact .quiet hE rfl rfl
  | decl x ds =>
    intro hl st st' c c' tr hE h hc
    simp only [exec] at h
    simp only [run] at hc
    cases hx : eval true p st.env ds with
    | error x => rw [hx] at h; cases h
    | ok ls =>
    cases hx' : cEval p w c ds with
    | error x => rw [hx'] at hc; cases hc
    | ok ls' =>
    rw [hx] at h; rw [hx'] at hc
    simp only at h hc
    cases hv : singles ls with
    | error x => rw [hv] at h; cases h
    | ok vs =>
    cases hv' : singles ls' with
    | error x => rw [hv'] at hc; cases hc
    | ok vs' =>
    rw [hv] at h; rw [hv'] at hc
    simp only at h hc
    split at h
    · cases h
    · split at h
      · cases h
      · rename_i dims hd
        rw [usizes_rel (singles_rel (eval_rel hp hw h1 hE ds hl hx hx') hv hv') hd] at hc
        simp only at hc
        split at h
        · cases h
        · rename_i env he
          split at hc
          · cases hc
          · rename_i env' he'
            cases h; cases hc
            refine .quiet ?_ rfl rfl
            have hn : RelS p w (newWithRoute dims .nonQuadratic) (newWithRoute dims 0) :=
              ⟨newWithRoute_rel (RelV.nonQuadratic ⟨le_refl _, by omega⟩) _, newWithRoute_shaped _ _⟩
            have hE' := hE
            unfold RelE at hE'
            generalize st.env = A at he hE'
            cases hE' with
            | nil => cases he
            | cons hb hbs =>
              cases he; cases he'
              exact .cons (.cons ⟨rfl, hn⟩ hb) hbs
  | assign x is e =>
    intro hl st st' c c' tr hE h hc
    simp only [exec] at h
    simp only [run] at hc
    cases hj : eval true p st.env is with
    | error x => rw [hj] at h; cases h
    | ok js =>
    cases hj' : cEval p w c is with
    | error x => rw [hj'] at hc; cases hc
    | ok js' =>
    rw [hj] at h; rw [hj'] at hc
    simp only at h hc
    cases hv : singles js with
    | error x => rw [hv] at h; cases h
    | ok vs =>
    cases hv' : singles js' with
    | error x => rw [hv'] at hc; cases hc
    | ok vs' =>
    rw [hv] at h; rw [hv'] at hc
    simp only at h hc
    have hr := singles_rel (eval_rel hp hw h1 hE is hl.1 hj hj') hv hv'
    cases hq : position vs with
    | error x => rw [hq] at h; cases h
    | ok pos =>
    cases hq' : cPosition vs' with
    | error x => rw [hq'] at hc; cases hc
    | ok is' =>
    rw [hq] at h; rw [hq'] at hc
    simp only at h hc
    obtain ⟨g1, g2⟩ := position_rel hr hq hq'
    cases hx : eval true p st.env e with
    | error x => rw [hx] at h; cases h
    | ok rs =>
    cases hx' : cEval p w c e with
    | error x => rw [hx'] at hc; cases hc
    | ok rs' =>
    rw [hx] at h; rw [hx'] at hc
    simp only at h hc
    cases ho : getOne rs with
    | error x => rw [ho] at h; cases h
    | ok r =>
    cases ho' : getOne rs' with
    | error x => rw [ho'] at hc; cases hc
    | ok r' =>
    rw [ho] at h; rw [ho'] at hc
    simp only at h hc
    have hrr := eval_rel hp hw h1 hE e hl.2 hx hx'
    rw [getOne_ok ho, getOne_ok ho'] at hrr
    cases hrr with
    | cons hrr _ =>
    rcases envGet_rel hE x with ⟨f1, _⟩ | ⟨s, t, f1, f2, f3⟩
    · rw [f1] at h; cases h
    · rw [f1] at h; rw [f2] at hc
      simp only at h hc
      cases hw1 : writeAt st.unknown s r pos with
      | error e => rw [hw1] at h; cases h
      | ok s' =>
      cases hw2 : insertVoid t is' r' with
      | error e => rw [hw2] at hc; cases hc
      | ok t' =>
      rw [hw1] at h; rw [hw2] at hc
      simp only at h hc
      have hst : RelS p w s' t' := by
        have hgood := insertVoid_good (p := p) ⟨f3.conc, f3.cells⟩ ⟨hrr.conc, hrr.cells⟩ hw2
        rcases g1 with rfl | rfl
        · simp only [writeAt] at hw1
          rw [insertVoid_whole f3.shaped] at hw1
          cases hw1
          rw [f3.rs.1, ← (insertVoid_shape hw2).1]
          exact RelS.unknown hgood.1 hgood.2
        · simp only [writeAt] at hw1
          have hval : RelS p w (if st.unknown then newWithRoute r.route .nonQuadratic else r) r' := by
            split
            · rw [hrr.rs.1]; exact RelS.unknown hrr.conc hrr.cells
            · exact hrr
          exact ⟨(insertVoid_rel f3.rs hval.rs is').ok hw1 hw2, insertVoid_shaped f3.shaped hw1⟩
      rcases envSet_rel hE x hst with ⟨k1, _⟩ | ⟨A, B, k1, k2, k3⟩
      · rw [k1] at h; cases h
      · rw [k1] at h; rw [k2] at hc
        cases h; cases hc
        exact .quiet k3 rfl rfl
  | cassign s dims is e =>
    intro hl st st' c c' tr hE h hc
    simp only [exec] at h
    simp only [run] at hc
    cases hj : eval true p st.env is with
    | error x => rw [hj] at h; cases h
    | ok js =>
    cases hj' : cEval p w c is with
    | error x => rw [hj'] at hc; cases hc
    | ok js' =>
    rw [hj] at h; rw [hj'] at hc
    simp only at h hc
    cases hv : singles js with
    | error x => rw [hv] at h; cases h
    | ok vs =>
    cases hv' : singles js' with
    | error x => rw [hv'] at hc; cases hc
    | ok vs' =>
    rw [hv] at h; rw [hv'] at hc
    simp only at h hc
    have hr := singles_rel (eval_rel hp hw h1 hE is hl.1 hj hj') hv hv'
    cases hq : position vs with
    | error x => rw [hq] at h; cases h
    | ok pos =>
    cases hq' : cPosition vs' with
    | error x => rw [hq'] at hc; cases hc
    | ok is' =>
    rw [hq] at h; rw [hq'] at hc
    simp only at h hc
    obtain ⟨g1, g2⟩ := position_rel hr hq hq'
    rcases g1 with rfl | rfl
    · cases h
    simp only at h
    cases hx : eval true p st.env e with
    | error x => rw [hx] at h; cases h
    | ok rs =>
    cases hx' : cEval p w c e with
    | error x => rw [hx'] at hc; cases hc
    | ok rs' =>
    rw [hx] at h; rw [hx'] at hc
    simp only at h hc
    cases ho : getOne rs with
    | error x => rw [ho] at h; cases h
    | ok r =>
    cases ho' : getOne rs' with
    | error x => rw [ho'] at hc; cases hc
    | ok r' =>
    rw [ho] at h; rw [ho'] at hc
    simp only at h hc
    have hrr := eval_rel hp hw h1 hE e hl.2 hx hx'
    rw [getOne_ok ho, getOne_ok ho'] at hrr
    cases hrr with
    | cons hrr _ =>
    cases ha : access (signalSlice s dims) is' with
    | error e => rw [ha] at h; cases h
    | ok l =>
    cases ha' : access (cSignals w s dims) is' with
    | error e => rw [ha'] at hc; cases hc
    | ok l' =>
    rw [ha] at h; rw [ha'] at hc
    simp only at h hc
    have hll := (access_rel (signals_rel hw s dims).rs is').ok ha ha'
    split at h
    · cases h
    · split at h
      · cases h
      · split at h
        · cases h
        · split at h
          · cases h
          · rename_i ks hk
            cases h; cases hc
            exact ⟨hE, rfl, ks, rfl, equalities_spec hp hw h1 hll.2 hrr.rs.2 hk⟩
  | check l r =>
    intro hl st st' c c' tr hE h hc
    simp only [exec] at h
    simp only [run] at hc
    split at h
    · cases h
    · cases hx : eval true p st.env l with
      | error x => rw [hx] at h; cases h
      | ok ls =>
      cases hy : eval true p st.env r with
      | error x => rw [hx, hy] at h; cases h
      | ok rs =>
      cases hx' : cEval p w c l with
      | error x => rw [hx'] at hc; cases hc
      | ok ls' =>
      cases hy' : cEval p w c r with
      | error x => rw [hx', hy'] at hc; cases hc
      | ok rs' =>
      rw [hx, hy] at h; rw [hx', hy'] at hc
      simp only at h hc
      split at h
      · rename_i a b ea eb
        split at hc
        · rename_i a' b' ea' eb'
          have r1 := eval_rel hp hw h1 hE l hl.1 hx hx'
          have r2 := eval_rel hp hw h1 hE r hl.2 hy hy'
          rw [getOne_ok ea, getOne_ok ea'] at r1
          rw [getOne_ok eb, getOne_ok eb'] at r2
          cases r1 with
          | cons r1 _ =>
          cases r2 with
          | cons r2 _ =>
          split at h
          · cases h
          · split at h
            · cases h
            · rename_i ks hk
              cases h; cases hc
              exact ⟨hE, rfl, ks, rfl, equalities_spec hp hw h1 r1.rs.2 r2.rs.2 hk⟩
        · cases hc
      · cases h
  | seq a b iha ihb =>
    intro hl st st' c c' tr hE h hc
    simp only [exec] at h
    simp only [run] at hc
    split at h
    · cases h
    · rename_i st1 g1
      split at hc
      · cases hc
      · rename_i c1 t1 g2
        cases hx : run cfuel p w b c1 with
        | error e => rw [hx] at hc; cases hc
        | ok y =>
          rw [hx] at hc; cases hc
          have s1 := iha hl.1 st st1 c c1 t1 hE g1 g2
          exact s1.trans (ihb hl.2 st1 st' c1 _ _ s1.env h hx)
  | ite c0 t e iht ihe =>
    intro hl st st' c c' tr hE h hc
    obtain ⟨l1, l2, l3⟩ := hl
    simp only [exec] at h
    simp only [run] at hc
    cases hx' : cCondition p w c0 c with
    | error e => rw [hx'] at hc; cases hc
    | ok b' =>
    rw [hx'] at hc
    split at h
    · cases h
    · rename_i hx
      rw [condition_rel hp hw h1 l1 hE hx hx'] at hc
      exact inBlock_step (iht l2) hE h hc
    · rename_i hx
      rw [condition_rel hp hw h1 l1 hE hx hx'] at hc
      exact inBlock_step (ihe l3) hE h hc
    · split at h
      · cases h
      · rename_i st1 g1
        split at h
        · cases h
        · rename_i st2 g2
          cases h
          obtain ⟨u1, u2, u3⟩ := inBlock_forgets (exec_forgets true fuel p t) rfl g1
          obtain ⟨v1, v2, v3⟩ := inBlock_forgets (exec_forgets true fuel p e) u2 g2
          cases b' with
          | true =>
            have s1 := inBlock_step (iht l2) (st := { st with unknown := true }) hE g1 hc
            obtain ⟨new, e1, e2⟩ := s1.cons
            exact ⟨relE_smash s1.env v1, rfl, new, v3.trans e1, e2⟩
          | false =>
            have s1 := inBlock_step (ihe l3) (relE_smash hE u1) g2 hc
            obtain ⟨new, e1, e2⟩ := s1.cons
            refine ⟨s1.env, rfl, new, ?_, e2⟩
            show st2.cons = st.cons ++ new
            rw [e1, u3]
  | loop c0 b ih =>
    intro hl st st' c c' tr hE h hc
    simp only [exec] at h
    simp only [run] at hc
    have key : ∀ (n m : Nat) (st st' : ASt) (c c' : CEnv) (tr : List (Int × Int)), RelE p w st.env c →
        loopKnown (condition true p c0) (inBlock (exec true fuel p b)) n st = .ok st' →
        cLoop (cCondition p w c0) (cBlock (run cfuel p w b)) m c = .ok (c', tr) →
        Step p w st st' c' tr := by
      intro n
      induction n with
      | zero => intro m st st' c c' tr _ h _; cases h
      | succ n ihn =>
        intro m st st' c c' tr hE h hc
        cases m with
        | zero => cases hc
        | succ m =>
          simp only [loopKnown] at h
          simp only [cLoop] at hc
          cases hx' : cCondition p w c0 c with
          | error e => rw [hx'] at hc; cases hc
          | ok b' =>
          rw [hx'] at hc
          split at h
          · cases h
          · cases h
          · rename_i hx
            rw [condition_rel hp hw h1 hl.1 hE hx hx'] at hc
            cases h; cases hc
            exact .quiet hE rfl rfl
          · rename_i hx
            rw [condition_rel hp hw h1 hl.1 hE hx hx'] at hc
            simp only at hc
            split at h
            · cases h
            · rename_i st1 g1
              split at hc
              · cases hc
              · rename_i c1 t1 g2
                cases hy : cLoop (cCondition p w c0) (cBlock (run cfuel p w b)) m c1 with
                | error e => rw [hy] at hc; cases hc
                | ok y =>
                  rw [hy] at hc; cases hc
                  have s1 := inBlock_step (ih hl.2) hE g1 g2
                  exact s1.trans (ihn m st1 st' c1 _ _ s1.env h hy)
    exact key fuel cfuel st st' c c' tr hE h hc
  | block b ih =>
    intro hl st st' c c' tr hE h hc
    simp only [exec] at h
    simp only [run] at hc
    exact inBlock_step (ih hl) hE h hc

end Verif.ArrExec
