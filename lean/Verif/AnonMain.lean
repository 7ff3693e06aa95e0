import Verif.AnonTuple

/-!
The run of a template before the removal of anonymous components and the run after it: statements.
-/

namespace Verif.Anon

open Verif.Exec (envGet envSet envAdd blockGet blockSet)

set_option linter.unusedSimpArgs false
set_option linter.unusedVariables false

variable {V : Type} {O : Ops V} {T : Nat → Option Templ} {N : Names} {L C : List Nat}

/-- What is asked of a statement and of what the pass makes of it. -/
structure Pre (N : Names) (T : Nat → Option Templ) (C L : List Nat) (acc : Option Nat) (s : SStmt) (u : Upd) :
    Prop where
  rem : removeS N T acc s = .ok u
  chk : checkS s = .ok ()
  par : parOkS s = true
  wf : wfS s = true
  src : srcS L s = true
  ind : apartS T s = true
  chkT : checkTS u.stmt = .ok ()
  loops : loops N s ⊆ L
  vars : u.vars ⊆ C
  vnd : u.vars.Nodup
  nacc : ∀ l, acc = some l → l ∉ u.vars ∧ l ∈ L
  cacc : u.comps ≠ [] → ∀ l, acc = some l → l ∈ C
  names : (u.comps.map (·.1)).Nodup

theorem rel_push {K : Nat → Nat} {d : Nat} {D : DSt V} {P : PSt V} (h : Rel O C L K d D P) :
    Rel O C L K (d + 1) ⟨[] :: D.env, D.log, D.insts⟩ ⟨[] :: P.env, P.log, P.store⟩ :=
  ⟨.push [] h.sim, h.hid, h.log, h.insts, h.nodup⟩

/-- Environments at depth `d + 1` have a block on top. -/
theorem sim_pop {ex : List (Nat × V)} {d : Nat} {D P : List (List (Nat × V))} (h : Sim ex (d + 1) D P) :
    ∃ b D1 P1, D = b :: D1 ∧ P = b :: P1 ∧ Sim ex d D1 P1 := by
  cases h with
  | push b h => exact ⟨b, _, _, rfl, rfl, h⟩

/-- The counter of a loop goes up. -/
theorem step_rel (law : ∀ n : Nat, O.idx (O.num n) = some n) (hC : C ⊆ L) (hn : C.Nodup)
    (hu : underscore ∉ L) {K : Nat → Nat} {d fuel l : Nat} {D : DSt V} {P : PSt V}
    (h : Rel O C L K d D P) (hl : l ∈ C) :
    ∃ E, runP O T fuel (.assign l .var (.succ l)) P = some ⟨E, P.log, P.store⟩ ∧
      Rel O C L (upd K l (K l + 1)) d D ⟨E, P.log, P.store⟩ := by
  have hd := h.hid l (hC hl)
  have hne : l ≠ underscore := fun e => hu (e ▸ hC hl)
  obtain ⟨E, h1, h2⟩ := sim_cnt_set (n := K l + 1) h.sim hl hn hd
  refine ⟨E, ?_, ⟨h2, h.hid, h.log, h.insts, h.nodup⟩⟩
  rw [runP, evalP]
  simp only [index, sim_cnt_get h.sim hl hd, law]
  rw [put, if_neg hne]
  have : ((K l : Int) + 1) = ((K l + 1 : Nat) : Int) := by simp
  rw [this, h1]
  simp [note]

theorem run_rel (law : ∀ n : Nat, O.idx (O.num n) = some n)
    (hT : ∀ t tm, T t = some tm → tm.inputs.Nodup) (hC : C ⊆ L) (hCn : C.Nodup) (hu : underscore ∉ L)
    (fuel : Nat) : (s : SStmt) → (acc : Option Nat) → (u : Upd) → Pre N T C L acc s u →
    ∀ (K : Nat → Nat) (d : Nat) (D : DSt V) (P : PSt V) (D' : DSt V), Rel O C L K d D P →
      Fresh K P u.comps → runD O T fuel s D = some D' →
      Does O T C L K d fuel acc u.stmt u.comps u.vars D' P
  | .nil, acc, u, hp, K, d, D, P, D', hr, hf, h => by
    have h0 := hp.rem
    rw [removeS] at h0
    cases h0
    rw [runD] at h
    cases h
    exact does_none rfl rfl hr
  | .cons a b, acc, u, hp, K, d, D, P, D', hr, hf, h => by
    obtain ⟨h0, hchk, hpar, hwf, hsrc, hind, hcT, hlp, hvs, hvn, hna, hca, hnm⟩ := hp
    rw [removeS] at h0
    rw [checkS] at hchk
    obtain ⟨hc1, hc2⟩ := ok_seq hchk
    simp only [parOkS, wfS, srcS, apartS, loops, Bool.and_eq_true] at hpar hwf hsrc hind hlp
    cases ha : removeS N T acc a with
    | error x => rw [ha] at h0; cases h0
    | ok ua =>
      rw [ha] at h0
      simp only at h0
      cases hb : removeS N T acc b with
      | error x => rw [hb] at h0; cases h0
      | ok ub =>
        rw [hb] at h0
        cases h0
        simp only at hcT hvs hvn hna hca hnm hf ⊢
        rw [checkTS] at hcT
        obtain ⟨ht1, ht2⟩ := ok_seq hcT
        rw [List.map_append, List.nodup_append] at hnm
        rw [List.nodup_append] at hvn
        obtain ⟨hlp1, hlp2⟩ := List.append_subset.mp hlp
        obtain ⟨hvs1, hvs2⟩ := List.append_subset.mp hvs
        rw [runD] at h
        cases hq : runD O T fuel a D with
        | none => rw [hq] at h; cases h
        | some D1 =>
          rw [hq] at h
          have pa : Pre N T C L acc a ua := ⟨ha, hc1, hpar.1, hwf.1, hsrc.1, hind.1, ht1, hlp1, hvs1, hvn.1,
            (fun l hl => ⟨fun hm => (hna l hl).1 (List.mem_append_left _ hm), (hna l hl).2⟩),
            (fun hne => hca (fun e => hne (List.append_eq_nil_iff.mp e).1)), hnm.1⟩
          have pb : Pre N T C L acc b ub := ⟨hb, hc2, hpar.2, hwf.2, hsrc.2, hind.2, ht2, hlp2, hvs2, hvn.2.1,
            (fun l hl => ⟨fun hm => (hna l hl).1 (List.mem_append_right _ hm), (hna l hl).2⟩),
            (fun hne => hca (fun e => hne (List.append_eq_nil_iff.mp e).2)), hnm.2.1⟩
          obtain ⟨K1, P1, n1, r1, hr1, hk1, hv1, hs1, hn1⟩ := run_rel law hT hC hCn hu fuel a acc ua pa K d D P D1 hr
            (fresh_mono hf (List.subset_append_left _ _)) hq
          have hf1 : Fresh K1 P1 ub.comps := by
            intro c hc m hm
            rw [hs1] at hm
            rcases List.mem_append.mp hm with hm | hm
            · obtain ⟨l, h1, h2⟩ := hf c (List.mem_append_right _ hc) m hm
              exact ⟨l, h1, Nat.lt_of_lt_of_le h2 (hk1 l)⟩
            · obtain ⟨c', hc', he, _⟩ := hn1 _ hm
              exact absurd he (hnm.2.2 _ (List.mem_map_of_mem hc') _ (List.mem_map_of_mem hc))
          obtain ⟨K2, P2, n2, r2, hr2, hk2, hv2, hs2, hn2⟩ := run_rel law hT hC hCn hu fuel b acc ub pb K1 d D1 P1 D' hr1
            hf1 h
          have hidx : idxK K1 acc = idxK K acc := by
            cases acc with
            | none => rfl
            | some l => exact hv1 l (fun hm => (hna l rfl).1 (List.mem_append_left _ hm))
          refine ⟨K2, P2, n1 ++ n2, ?_, hr2, fun l => Nat.le_trans (hk1 l) (hk2 l), ?_,
            by rw [hs2, hs1, List.append_assoc], ?_⟩
          · rw [runP, r1]; exact r2
          · intro l hl
            exact (hv2 l (fun hm => hl (List.mem_append_right _ hm))).trans
              (hv1 l (fun hm => hl (List.mem_append_left _ hm)))
          · intro k hk
            rcases List.mem_append.mp hk with hk | hk
            · exact keys_mono hn1 (List.subset_append_left _ _) (List.subset_append_left _ _) hk2 k hk
            · obtain ⟨c, h1, h2, h3⟩ := hn2 k hk
              refine ⟨c, List.mem_append_right _ h1, h2, ?_⟩
              rcases h3 with ⟨h4, h5⟩ | ⟨l, h4, h5⟩
              · exact .inl ⟨h4, h5.trans hidx⟩
              · exact .inr ⟨l, List.mem_append_right _ h4, h5⟩
  | .decl x dims, acc, u, hp, K, d, D, P, D', hr, hf, h => by
    have h0 := hp.rem
    simp only [removeS] at h0
    cases h0
    have hchk := hp.chk
    have hsrc := hp.src
    rw [checkS] at hchk
    simp only [srcS, Bool.and_eq_true, decide_eq_true_eq] at hsrc
    rw [runD] at h
    cases he : evalD O T D.env dims with
    | none => rw [he] at h; cases h
    | some ds =>
      rw [he] at h
      simp only at h
      obtain ⟨_, h2⟩ := plain dims ds (ok_if hchk).1 hsrc.2 he
      cases hadd : envAdd D.env x O.undef with
      | none => rw [hadd] at h; cases h
      | some env =>
        rw [hadd] at h
        cases h
        obtain ⟨E, h3, h4⟩ := sim_add hr.sim hadd
        refine does_none (P' := ⟨E, P.log, P.store⟩) ?_ rfl ⟨h4, ?_, hr.log, hr.insts, hr.nodup⟩
        · rw [runP, h2 P.env P.store (rel_vis hr hC)]
          simp only [h3]
        · intro l hl
          have hlx : x ≠ l := fun e => hsrc.1 (e ▸ hl)
          have := hr.hid l hl
          revert hadd this
          cases D.env with
          | nil => intro hadd; simp [envAdd] at hadd
          | cons b r =>
            intro hadd this
            rw [envAdd] at hadd
            cases hadd
            simp only [envGet, blockGet] at this ⊢
            rw [if_neg hlx]
            exact this
  | .assign x op e, acc, u, hp, K, d, D, P, D', hr, hf, h => by
    obtain ⟨h0, hchk, hpar, hwf, hsrc, hind, hcT, hlp, hvs, hvn, hna, hca, hnm⟩ := hp
    rw [removeS] at h0
    rw [checkS] at hchk
    simp only [parOkS, wfS, srcS, Bool.and_eq_true, decide_eq_true_eq] at hpar hwf hsrc
    have hprop := proper_of e (ok_if hchk).2 hpar
    rw [runD] at h
    split at h
    · rename_i v is hv
      cases hput : put x v D.env with
      | none => rw [hput] at h; cases h
      | some env =>
        rw [hput] at h
        cases h
        obtain ⟨E, hpE, hsE⟩ := sim_put hr.sim (x := x) (by rw [cnt_names]; exact fun hc => hsrc.1 (hC hc)) hput
        have hhid := hid_put hsrc.1 hr.hid hput
        split at h0
        · rename_i r hrem
          have key : ∀ u0 : Upd, u0.comps = r.comps → (Fresh K P u0.comps) →
              ((u0.comps.map (·.1)).Nodup) → (u0.comps ≠ [] → ∀ l, acc = some l → l ∈ C) →
              ∃ new, runP O T fuel (chain r.stmts) P = some ⟨P.env, P.log, P.store ++ new⟩ ∧
                runP O T fuel (chain r.stmts) ⟨[] :: P.env, P.log, P.store⟩ =
                  some ⟨[] :: P.env, P.log, P.store ++ new⟩ ∧
                evalP O T P.env (P.store ++ new) r.expr = some [v] ∧
                Rel O C L K d ⟨env, D.log ++ note x op v, D.insts ++ is⟩
                  ⟨E, P.log ++ note x op v, P.store ++ new⟩ ∧
                Keys u0.comps [] acc K K (new.map (·.1)) := by
            intro u0 hu0 hf0 hn0 hc0
            rw [hu0] at hf0 hn0 hc0
            obtain ⟨vs, is', new, hds, r1, r2, e1, i1, k1, kk⟩ := expr_rel law hT hr hC hrem hprop hwf hsrc.2
              hn0 hc0 hf0 hv fuel
            cases hds
            rw [hu0]
            exact ⟨new, r1, r2, e1, ⟨hsE, hhid, by rw [hr.log], i1, k1⟩, kk⟩
          split at h0
          · rename_i hst
            cases h0
            obtain ⟨new, r1, r2, e1, hrel, hk⟩ := key _ rfl hf hnm hca
            rw [hst] at r1
            simp only [chain, runP, Option.some.injEq] at r1
            have hnew : P.store = P.store ++ new := congrArg PSt.store r1
            rw [← hnew] at e1 hrel
            refine does_none (P' := ⟨E, P.log ++ note x op v, P.store⟩) ?_ rfl hrel
            rw [runP, e1]
            simp only [hpE]
          · cases h0
            obtain ⟨new, r1, r2, e1, hrel, hk⟩ := key _ rfl hf hnm hca
            refine ⟨K, _, new.map (·.1), ?_, hrel, fun _ => Nat.le_refl _, fun _ _ => rfl,
              List.map_append, hk⟩
            simp only
            rw [runP, run_append, r2]
            simp only
            rw [run_one, runP]
            simp only
            rw [evalP_push, e1]
            simp only
            rw [put_push hpE]
            rfl
        · cases h0
        · cases h0
    · cases h
  | .mult lhs op e, acc, u, hp, K, d, D, P, D', hr, hf, h => by
    obtain ⟨h0, hchk, hpar, hwf, hsrc, hind, hcT, hlp, hvs, hvn, hna, hca, hnm⟩ := hp
    rw [removeS] at h0
    rw [checkS] at hchk
    simp only [parOkS, wfS, srcS, Bool.and_eq_true, decide_eq_true_eq] at hpar hwf hsrc
    have hprop := proper_of e (ok_if (ok_if hchk).2).2 hpar
    rw [runD] at h
    cases htg : targets lhs with
    | none => rw [htg] at h; cases h
    | some xs =>
      rw [htg] at h
      rw [apartS, htg] at hind
      simp only at h hind
      split at h
      · rename_i D1 hq
        cases h
        split at h0
        · rename_i r hrem
          obtain ⟨hfa, hfw, _⟩ := removeE_fine N T acc e false [r] hrem hprop hwf.2 r List.mem_cons_self
          have key : ∀ u0 : Upd, u0.comps = r.comps → (Fresh K P u0.comps) →
              ((u0.comps.map (·.1)).Nodup) → (u0.comps ≠ [] → ∀ l, acc = some l → l ∈ C) →
              checkTE r.expr = .ok () →
              ∃ new E, runP O T fuel (chain r.stmts) P = some ⟨P.env, P.log, P.store ++ new⟩ ∧
                runP O T fuel (chain r.stmts) ⟨[] :: P.env, P.log, P.store⟩ =
                  some ⟨[] :: P.env, P.log, P.store ++ new⟩ ∧
                putEach O T op xs (flat r.expr) ⟨P.env, P.log, P.store ++ new⟩ =
                  some ⟨E, D'.log, P.store ++ new⟩ ∧
                Rel O C L K d D' ⟨E, D'.log, P.store ++ new⟩ ∧
                Keys u0.comps [] acc K K (new.map (·.1)) := by
            intro u0 hu0 hf0 hn0 hc0 hte
            rw [hu0] at hf0 hn0 hc0 ⊢
            exact mult_rel law hT hr hC (fun l hl => (hna l hl).2) hrem hprop hwf.2 hsrc.2
              (fun x hx => (flat_free r.expr false hte hfw hfa x hx).1) hn0 hc0 hf0
              (targets_src xs htg hsrc.1) hind hq fuel
          split at h0
          · rename_i hst
            cases h0
            simp only [checkTS] at hcT
            obtain ⟨new, E, r1, r2, e1, hrel, hk⟩ := key _ rfl hf hnm hca (ok_seq hcT).2
            rw [hst] at r1
            simp only [chain, runP, Option.some.injEq] at r1
            have hnew : P.store = P.store ++ new := congrArg PSt.store r1
            rw [← hnew] at e1 hrel
            refine does_none (P' := ⟨E, D'.log, P.store⟩) ?_ rfl hrel
            rw [runP, htg]
            exact e1
          · cases h0
            have hte : checkTE r.expr = .ok () := by
              simp only [checkTS] at hcT
              have := hcT
              clear key
              revert this
              generalize r.stmts = ss
              intro this
              induction ss with
              | nil =>
                simp only [List.nil_append, chain, checkTS] at this
                exact (ok_seq (ok_seq this).1).2
              | cons a ss ih =>
                simp only [List.cons_append, chain, checkTS] at this
                exact ih (ok_seq this).2
            obtain ⟨new, E, r1, r2, e1, hrel, hk⟩ := key _ rfl hf hnm hca hte
            refine ⟨K, _, new.map (·.1), ?_, hrel, fun _ => Nat.le_refl _, fun _ _ => rfl,
              List.map_append, hk⟩
            simp only
            rw [runP, run_append, r2]
            simp only
            rw [run_one, runP, htg]
            simp only
            have := putEach_push _ _ _ _ e1
            simp only at this
            rw [this]
            rfl
        · cases h0
        · cases h0
      · cases h
  | .emit as, acc, u, hp, K, d, D, P, D', hr, hf, h => by
    have h0 := hp.rem
    simp only [removeS] at h0
    cases h0
    have hchk := hp.chk
    have hsrc := hp.src
    rw [checkS] at hchk
    simp only [srcS] at hsrc
    rw [runD] at h
    cases he : evalD O T D.env as with
    | none => rw [he] at h; cases h
    | some ds =>
      rw [he] at h
      cases h
      obtain ⟨h1, h2⟩ := plain as ds (ok_if hchk).1 hsrc he
      have h3 : ds.flatMap (·.2) = [] := List.flatMap_eq_nil_iff.mpr h1
      refine does_none (P' := ⟨P.env, P.log ++ [.emit (ds.flatMap (·.1))], P.store⟩) ?_ rfl
        ⟨hr.sim, hr.hid, by rw [hr.log], by simp only [h3, List.append_nil]; exact hr.insts, hr.nodup⟩
      rw [runP, h2 P.env P.store (rel_vis hr hC)]
  | .ifThen c t, acc, u, hp, K, d, D, P, D', hr, hf, h => by
    obtain ⟨h0, hchk, hpar, hwf, hsrc, hind, hcT, hlp, hvs, hvn, hna, hca, hnm⟩ := hp
    rw [removeS] at h0
    rw [checkS] at hchk
    simp only [parOkS, wfS, srcS, apartS, loops, Bool.and_eq_true] at hpar hwf hsrc hind hlp
    cases ha : removeS N T acc t with
    | error x => rw [ha] at h0; cases h0
    | ok ut =>
      rw [ha] at h0
      cases h0
      simp only at hcT hvs hvn hna hca hnm hf ⊢
      rw [checkTS] at hcT
      rw [runD] at h
      cases hc : condD O T c D with
      | none => rw [hc] at h; cases h
      | some p =>
        obtain ⟨D1, b⟩ := p
        obtain ⟨rfl, h1⟩ := cond_rel hr hC (ok_if hchk).1 hsrc.1 hwf.1 hc
        rw [hc] at h
        cases b with
        | false =>
          cases h
          refine does_none (P' := P) ?_ rfl hr
          rw [runP, h1]
        | true =>
          obtain ⟨K', P', new, r1, hrest⟩ := run_rel law hT hC hCn hu fuel t acc ut
            ⟨ha, (ok_if hchk).2, hpar, hwf.2, hsrc.2, hind, (ok_if hcT).2, hlp, hvs, hvn, hna, hca, hnm⟩
            K d D1 P D' hr hf h
          refine ⟨K', P', new, ?_, hrest⟩
          rw [runP, h1]
          exact r1
  | .ifElse c t e, acc, u, hp, K, d, D, P, D', hr, hf, h => by
    obtain ⟨h0, hchk, hpar, hwf, hsrc, hind, hcT, hlp, hvs, hvn, hna, hca, hnm⟩ := hp
    rw [removeS] at h0
    rw [checkS] at hchk
    simp only [parOkS, wfS, srcS, apartS, loops, Bool.and_eq_true] at hpar hwf hsrc hind hlp
    obtain ⟨hchk0, hchk1⟩ := ok_if hchk
    obtain ⟨hc1, hc2⟩ := ok_seq hchk1
    cases ha : removeS N T acc t with
    | error x => rw [ha] at h0; cases h0
    | ok ua =>
      rw [ha] at h0
      simp only at h0
      cases hb : removeS N T acc e with
      | error x => rw [hb] at h0; cases h0
      | ok ub =>
        rw [hb] at h0
        cases h0
        simp only at hcT hvs hvn hna hca hnm hf ⊢
        rw [checkTS] at hcT
        obtain ⟨ht1, ht2⟩ := ok_seq (ok_if hcT).2
        rw [List.map_append, List.nodup_append] at hnm
        rw [List.nodup_append] at hvn
        obtain ⟨hlp1, hlp2⟩ := List.append_subset.mp hlp
        obtain ⟨hvs1, hvs2⟩ := List.append_subset.mp hvs
        rw [runD] at h
        cases hc : condD O T c D with
        | none => rw [hc] at h; cases h
        | some p =>
          obtain ⟨D1, b⟩ := p
          obtain ⟨rfl, h1⟩ := cond_rel hr hC hchk0 hsrc.1.1 hwf.1.1 hc
          rw [hc] at h
          cases b with
          | true =>
            have pa : Pre N T C L acc t ua := ⟨ha, hc1, hpar.1, hwf.1.2, hsrc.1.2, hind.1, ht1, hlp1, hvs1, hvn.1,
              (fun l hl => ⟨fun hm => (hna l hl).1 (List.mem_append_left _ hm), (hna l hl).2⟩),
              (fun hne => hca (fun e => hne (List.append_eq_nil_iff.mp e).1)), hnm.1⟩
            obtain ⟨K', P', new, r1, hrest⟩ := does_mono (run_rel law hT hC hCn hu fuel t acc ua pa K d D1 P D' hr
              (fresh_mono hf (List.subset_append_left _ _)) h) (List.subset_append_left _ ub.comps)
              (List.subset_append_left _ ub.vars)
            refine ⟨K', P', new, ?_, hrest⟩
            rw [runP, h1]
            exact r1
          | false =>
            have pb : Pre N T C L acc e ub := ⟨hb, hc2, hpar.2, hwf.2, hsrc.2, hind.2, ht2, hlp2, hvs2, hvn.2.1,
              (fun l hl => ⟨fun hm => (hna l hl).1 (List.mem_append_right _ hm), (hna l hl).2⟩),
              (fun hne => hca (fun e => hne (List.append_eq_nil_iff.mp e).2)), hnm.2.1⟩
            obtain ⟨K', P', new, r1, hrest⟩ := does_mono (run_rel law hT hC hCn hu fuel e acc ub pb K d D1 P D' hr
              (fresh_mono hf (List.subset_append_right _ _)) h) (List.subset_append_right ua.comps _)
              (List.subset_append_right ua.vars _)
            refine ⟨K', P', new, ?_, hrest⟩
            rw [runP, h1]
            exact r1
  | .while pos c b, acc, u, hp, K, d, D, P, D', hr, hf, h => by
    obtain ⟨h0, hchk, hpar, hwf, hsrc, hind, hcT, hlp, hvs, hvn, hna, hca, hnm⟩ := hp
    rw [removeS] at h0
    rw [checkS] at hchk
    simp only [parOkS, wfS, srcS, apartS, loops, Bool.and_eq_true, Bool.not_eq_true'] at hpar hwf hsrc hind hlp
    obtain ⟨hchk0, hchk1⟩ := ok_if hchk
    obtain ⟨hl0, hlp⟩ := List.cons_subset.mp hlp
    rw [runD] at h
    cases hb : removeS N T (some (N.loop pos)) b with
    | error x => rw [hb] at h0; cases h0
    | ok ub =>
      rw [hb] at h0
      simp only at h0
      split at h0
      · rename_i hne
        cases h0
        simp only at hcT hvs hvn hna hca hnm hf ⊢
        simp only [checkTS, chain] at hcT
        obtain ⟨ht1, _⟩ := ok_seq (ok_if hcT).2
        obtain ⟨hvn1, hvn2⟩ := List.nodup_cons.mp hvn
        obtain ⟨hvs1, hvs2⟩ := List.cons_subset.mp hvs
        have pb : Pre N T C L (some (N.loop pos)) b ub := ⟨hb, hchk1, hpar, hwf.2, hsrc.1.2, hind, ht1, hlp, hvs2,
          hvn2, (fun l hl => by cases hl; exact ⟨hvn1, hl0⟩), (fun _ l hl => by cases hl; exact hvs1), hnm⟩
        have hturn := loop_rel (bP := runP O T fuel (.block (chain [ub.stmt, .assign (N.loop pos) .var (.succ (N.loop pos))])))
          (T := T) (O := O) (d := d) (vars := N.loop pos :: ub.vars) (bD := runD O T fuel b)
          hnm hC hchk0 hsrc.1.1 hwf.1 (by
            intro K D P D' hr hf h
            obtain ⟨E', g1, g2⟩ := run_gap fuel b 0 D D' ([] :: D.env) (fun _ => hsrc.2) (.here _) h
            obtain ⟨K1, P1, new, r1, hr1, hk1, hv1, hs1, hn1⟩ := run_rel law hT hC hCn hu fuel b _ ub pb K (d + 1) _
              _ _ (rel_push hr) hf g1
            obtain ⟨E2, s1, s2⟩ := step_rel (T := T) (fuel := fuel) law hC hCn hu hr1 hvs1
            cases g2
            have s3 := s2.sim
            obtain ⟨bb, De, Pe, e1, e2, s4⟩ := sim_pop s3
            simp only at e1 e2
            cases e1
            subst e2
            have hKl : K1 (N.loop pos) = K (N.loop pos) := hv1 _ hvn1
            refine ⟨upd K1 (N.loop pos) (K1 (N.loop pos) + 1), ⟨Pe, P1.log, P1.store⟩, new, ?_,
              ⟨s4, s2.hid, s2.log, s2.insts, s2.nodup⟩, ?_, ?_, hs1, ?_⟩
            · rw [runP]
              simp only [chain, runP]
              rw [r1]
              simp only
              rw [runP] at s1
              rw [s1]
              rfl
            · intro l
              by_cases hll : l = N.loop pos
              · rw [hll]; simp only [upd, if_true, hKl]; omega
              · simp only [upd, if_neg hll]; exact hk1 l
            · intro l hl
              simp only [List.mem_cons, not_or] at hl
              simp only [upd, if_neg hl.1]
              exact hv1 l hl.2
            · intro k hk
              obtain ⟨c, h1, h2, h3⟩ := hn1 k hk
              refine ⟨c, h1, h2, ?_⟩
              rcases h3 with ⟨h4, h5⟩ | ⟨l, h4, h5, h6⟩
              · refine ⟨N.loop pos, List.mem_cons_self, h4, ?_⟩
                rw [h5]
                simp only [idxK, upd, if_true, hKl]
                omega
              · refine ⟨l, List.mem_cons_of_mem _ h4, h5, ?_⟩
                by_cases hll : l = N.loop pos
                · exact absurd (hll ▸ h4) hvn1
                · simp only [upd, if_neg hll]; exact h6) fuel K D P D' hr hf h
        obtain ⟨K', P', new, r1, h1, h2, h3, h4, h5⟩ := hturn
        refine ⟨K', P', new, by rw [runP]; exact r1, h1, h2, h3, h4, ?_⟩
        intro k hk
        obtain ⟨c, g1, g2, g3⟩ := h5 k hk
        exact ⟨c, g1, g2, .inr g3⟩
      · rename_i hne
        have hcomps : ub.comps = [] := by
          cases hh : ub.comps with
          | nil => rfl
          | cons a l => rw [hh] at hne; exact absurd (by simp) hne
        have hvars := removeS_vars b _ ub hb hcomps
        cases h0
        simp only at hcT hvs hvn hna hca hnm hf ⊢
        rw [checkTS] at hcT
        have pb : Pre N T C L (some (N.loop pos)) b ub := ⟨hb, hchk1, hpar, hwf.2, hsrc.1.2, hind, (ok_if hcT).2,
          hlp, by rw [hvars]; exact List.nil_subset _, by rw [hvars]; exact List.nodup_nil,
          (fun l hl => by cases hl; exact ⟨by rw [hvars]; simp, hl0⟩), (fun hne => absurd hcomps hne), hnm⟩
        have hturn := loop_rel (bP := runP O T fuel ub.stmt)
          (T := T) (O := O) (d := d) (vars := []) (bD := runD O T fuel b)
          hnm hC hchk0 hsrc.1.1 hwf.1 (by
            intro K D P D' hr hf h
            obtain ⟨K1, P1, new, r1, hr1, hk1, hv1, hs1, hn1⟩ := run_rel law hT hC hCn hu fuel b _ ub pb K d _
              _ _ hr hf h
            refine ⟨K1, P1, new, r1, hr1, hk1, by rw [← hvars]; exact hv1, hs1, ?_⟩
            intro k hk
            obtain ⟨c, h1, _⟩ := hn1 k hk
            rw [hcomps] at h1
            cases h1) fuel K D P D' hr hf h
        obtain ⟨K', P', new, r1, h1, h2, h3, h4, h5⟩ := hturn
        refine ⟨K', P', new, by rw [runP]; exact r1, h1, h2, h3, h4, ?_⟩
        intro k hk
        obtain ⟨c, g1, g2, g3⟩ := h5 k hk
        exact ⟨c, g1, g2, .inr g3⟩
  | .block b, acc, u, hp, K, d, D, P, D', hr, hf, h => by
    obtain ⟨h0, hchk, hpar, hwf, hsrc, hind, hcT, hlp, hvs, hvn, hna, hca, hnm⟩ := hp
    rw [removeS] at h0
    rw [checkS] at hchk
    simp only [parOkS, wfS, srcS, apartS, loops] at hpar hwf hsrc hind hlp
    cases ha : removeS N T acc b with
    | error x => rw [ha] at h0; cases h0
    | ok ut =>
      rw [ha] at h0
      cases h0
      simp only at hcT hvs hvn hna hca hnm hf ⊢
      rw [checkTS] at hcT
      rw [runD] at h
      cases hq : runD O T fuel b ⟨[] :: D.env, D.log, D.insts⟩ with
      | none => rw [hq] at h; cases h
      | some D1 =>
        rw [hq] at h
        cases h
        obtain ⟨K', P', new, r1, h1, h2, h3, h4, h5⟩ := run_rel law hT hC hCn hu fuel b acc ut
          ⟨ha, hchk, hpar, hwf, hsrc, hind, hcT, hlp, hvs, hvn, hna, hca, hnm⟩
          K (d + 1) _ _ D1 (rel_push hr) hf hq
        obtain ⟨bb, De, Pe, e1, e2, s4⟩ := sim_pop h1.sim
        refine ⟨K', ⟨Pe, P'.log, P'.store⟩, new, ?_, ⟨?_, ?_, h1.log, h1.insts, h1.nodup⟩, h2, h3, h4, h5⟩
        · rw [runP, r1]
          simp only [e2, List.tail_cons]
        · simp only [e1, List.tail_cons]
          exact s4
        · intro l hl
          have := h1.hid l hl
          rw [e1] at this ⊢
          simp only [List.tail_cons]
          simp only [envGet] at this
          cases hbb : blockGet bb l with
          | some v => rw [hbb] at this; cases this
          | none => rw [hbb] at this; exact this
  | .init b, acc, u, hp, K, d, D, P, D', hr, hf, h => by
    obtain ⟨h0, hchk, hpar, hwf, hsrc, hind, hcT, hlp, hvs, hvn, hna, hca, hnm⟩ := hp
    rw [removeS] at h0
    rw [checkS] at hchk
    simp only [parOkS, wfS, srcS, apartS, loops] at hpar hwf hsrc hind hlp
    cases ha : removeS N T acc b with
    | error x => rw [ha] at h0; cases h0
    | ok ut =>
      rw [ha] at h0
      cases h0
      simp only at hcT hvs hvn hna hca hnm hf ⊢
      rw [checkTS] at hcT
      rw [runD] at h
      exact run_rel law hT hC hCn hu fuel b acc ut
          ⟨ha, hchk, hpar, hwf, hsrc, hind, hcT, hlp, hvs, hvn, hna, hca, hnm⟩ K d D P D' hr hf h
  | .comp _ _, _, _, hp, _, _, _, _, _, _, _, _ | .create _ _ _ _ _, _, _, hp, _, _, _, _, _, _, _, _
  | .input _ _ _ _, _, _, hp, _, _, _, _, _, _, _, _ | .under _ _, _, _, hp, _, _, _, _, _, _, _, _ => by
    have := hp.src
    simp [srcS] at this

end Verif.Anon
