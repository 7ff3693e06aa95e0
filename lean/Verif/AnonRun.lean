import Verif.AnonStmt

/-!
The run of a template before the removal of anonymous components and the run after it.
-/

namespace Verif.Anon

open Verif.Exec (envGet envSet envAdd blockGet blockSet)

set_option linter.unusedSimpArgs false
set_option linter.unusedVariables false

variable {V : Type} {O : Ops V} {T : Nat → Option Templ} {N : Names} {L C : List Nat}

/-! ### An empty block does not matter -/

/-- `E'` is `E` with an empty block below the first `d` blocks. -/
inductive Gap : Nat → List (List (Nat × V)) → List (List (Nat × V)) → Prop where
  | here (E : List (List (Nat × V))) : Gap 0 E ([] :: E)
  | push {d : Nat} {E E' : List (List (Nat × V))} (b : List (Nat × V)) (h : Gap d E E') :
    Gap (d + 1) (b :: E) (b :: E')

theorem gap_get {d : Nat} {E E' : List (List (Nat × V))} (h : Gap d E E') (x : Nat) :
    envGet E' x = envGet E x := by
  induction h with
  | here E => rfl
  | push b _ ih => simp only [envGet, ih]

theorem gap_set {d : Nat} {E E' : List (List (Nat × V))} (h : Gap d E E') {x : Nat} {v : V} :
    ∀ F, envSet E x v = some F → ∃ F', envSet E' x v = some F' ∧ Gap d F F' := by
  induction h with
  | here E =>
    intro F hs
    exact ⟨[] :: F, by simp only [envSet, blockSet, hs, Option.map_some], .here F⟩
  | @push d E E' b h ih =>
    intro F hs
    rw [envSet] at hs ⊢
    cases hb : blockSet b x v with
    | some b' =>
      rw [hb] at hs
      cases hs
      exact ⟨_, rfl, .push b' h⟩
    | none =>
      rw [hb] at hs
      simp only at hs ⊢
      cases hr : envSet E x v with
      | none => rw [hr] at hs; cases hs
      | some r =>
        rw [hr] at hs
        cases hs
        obtain ⟨F', h1, h2⟩ := ih r hr
        exact ⟨b :: F', by rw [h1]; rfl, .push b h2⟩

theorem gap_put {d : Nat} {E E' F : List (List (Nat × V))} (h : Gap d E E') {x : Nat} {v : V}
    (hs : put x v E = some F) : ∃ F', put x v E' = some F' ∧ Gap d F F' := by
  rw [put] at hs ⊢
  split at hs
  · rename_i h0
    cases hs
    exact ⟨E', by rw [if_pos h0], h⟩
  · rename_i h0
    rw [if_neg h0]
    exact gap_set h F hs

theorem gap_putAll {d : Nat} {op : AOp} : (xs : List Nat) → (vs : List V) →
    (E E' F : List (List (Nat × V))) → (log log' : List (Ev V)) → Gap d E E' →
    putAll op xs vs E log = some (F, log') → ∃ F', putAll op xs vs E' log = some (F', log') ∧ Gap d F F'
  | [], [], E, E', F, log, log', h, hp => by
    rw [putAll] at hp ⊢
    cases hp
    exact ⟨E', rfl, h⟩
  | [], _ :: _, _, _, _, _, _, _, hp => by simp [putAll] at hp
  | _ :: _, [], _, _, _, _, _, _, hp => by simp [putAll] at hp
  | x :: xs, v :: vs, E, E', F, log, log', h, hp => by
    rw [putAll] at hp ⊢
    cases hq : put x v E with
    | none => rw [hq] at hp; cases hp
    | some E1 =>
      rw [hq] at hp
      simp only at hp
      obtain ⟨E1', h1, h2⟩ := gap_put h hq
      rw [h1]
      exact gap_putAll xs vs E1 E1' F _ log' h2 hp

theorem evalD_congr {A B : List (List (Nat × V))} (h : ∀ x, envGet A x = envGet B x) (e : SExpr) :
    evalD O T A e = evalD O T B e := by
  fun_induction evalD O T A e <;> simp_all [evalD]

theorem cond_gap {d : Nat} {c : SExpr} {D D' : DSt V} {E : List (List (Nat × V))} {b : Bool}
    (h : Gap d D.env E) (hc : condD O T c D = some (D', b)) :
    ∃ E', condD O T c ⟨E, D.log, D.insts⟩ = some (⟨E', D'.log, D'.insts⟩, b) ∧ Gap d D'.env E' := by
  rw [condD] at hc ⊢
  simp only
  rw [evalD_congr (gap_get h)]
  split at hc
  · split at hc
    · cases hc
    · rename_i v is hv b' ht
      cases hc
      exact ⟨E, by simp only [ht], h⟩
  · cases hc

theorem loop_gap {d fuel : Nat} {c : SExpr} {b : SStmt}
    (hb : ∀ (D D' : DSt V) (E : List (List (Nat × V))), Gap d D.env E → runD O T fuel b D = some D' →
      ∃ E', runD O T fuel b ⟨E, D.log, D.insts⟩ = some ⟨E', D'.log, D'.insts⟩ ∧ Gap d D'.env E') :
    (n : Nat) → (D D' : DSt V) → (E : List (List (Nat × V))) → Gap d D.env E →
      loop (condD O T c) (runD O T fuel b) n D = some D' →
      ∃ E', loop (condD O T c) (runD O T fuel b) n ⟨E, D.log, D.insts⟩ = some ⟨E', D'.log, D'.insts⟩ ∧
        Gap d D'.env E'
  | 0, D, D', E, h, hr => by cases hr
  | n + 1, D, D', E, h, hr => by
    rw [loop] at hr ⊢
    cases hc : condD O T c D with
    | none => rw [hc] at hr; cases hr
    | some p =>
      obtain ⟨D1, t⟩ := p
      rw [hc] at hr
      obtain ⟨E1, h1, h2⟩ := cond_gap h hc
      rw [h1]
      cases t with
      | false =>
        cases hr
        exact ⟨E1, rfl, h2⟩
      | true =>
        simp only at hr ⊢
        cases hq : runD O T fuel b D1 with
        | none => rw [hq] at hr; cases hr
        | some D2 =>
          rw [hq] at hr
          obtain ⟨E2, h3, h4⟩ := hb D1 D2 E1 h2 hq
          rw [h3]
          exact loop_gap hb n D2 D' E2 h4 hr

theorem gap_seq {d : Nat} {op : AOp} : (e : SExpr) → (xs xs' : List Nat) → (D D' : DSt V) →
    (E : List (List (Nat × V))) → Gap d D.env E → seqD O T op e xs D = some (xs', D') →
    ∃ E', seqD O T op e xs ⟨E, D.log, D.insts⟩ = some (xs', ⟨E', D'.log, D'.insts⟩) ∧ Gap d D'.env E' := by
  intro e xs xs' D
  fun_induction seqD O T op e xs D generalizing xs' with
  | case1 xs D => intro D' E h hr; cases hr; exact ⟨E, rfl, h⟩
  | case2 => intro D' E h hr; cases hr
  | case3 e r xs D xs1 D1 hs ih1 ih2 =>
    intro D' E h hr
    obtain ⟨E1, h1, h2⟩ := ih1 xs1 D1 E h hs
    obtain ⟨E2, h3, h4⟩ := ih2 xs' D' E1 h2 hr
    exact ⟨E2, by rw [seqD, h1]; exact h3, h4⟩
  | case4 es xs D ih =>
    intro D' E h hr
    obtain ⟨E1, h1, h2⟩ := ih xs' D' E h hr
    exact ⟨E1, by rw [seqD]; exact h1, h2⟩
  | case5 => intro D' E h hr; cases hr
  | case6 e xs D g1 g2 g3 vs is he env log hp =>
    intro D' E h hr
    cases hr
    obtain ⟨F, h1, h2⟩ := gap_putAll _ _ _ _ _ _ _ h hp
    refine ⟨F, ?_, h2⟩
    rw [seqD.eq_4 _ _ _ _ _ _ g1 g2 g3]
    simp only
    rw [← evalD_congr (fun x => (gap_get h x).symm), he]
    simp only [h1]
  | case7 => intro D' E h hr; cases hr

theorem run_gap (fuel : Nat) : (s : SStmt) → (d : Nat) → (D D' : DSt V) → (E : List (List (Nat × V))) →
    (d = 0 → naked s = false) → Gap d D.env E → runD O T fuel s D = some D' →
    ∃ E', runD O T fuel s ⟨E, D.log, D.insts⟩ = some ⟨E', D'.log, D'.insts⟩ ∧ Gap d D'.env E'
  | .nil, d, D, D', E, hn, h, hr => by rw [runD] at hr ⊢; cases hr; exact ⟨E, rfl, h⟩
  | .cons a b, d, D, D', E, hn, h, hr => by
    simp only [naked, Bool.or_eq_false_iff] at hn
    rw [runD] at hr ⊢
    cases ha : runD O T fuel a D with
    | none => rw [ha] at hr; cases hr
    | some D1 =>
      rw [ha] at hr
      obtain ⟨E1, h1, h2⟩ := run_gap fuel a d D D1 E (fun h0 => (hn h0).1) h ha
      rw [h1]
      exact run_gap fuel b d D1 D' E1 (fun h0 => (hn h0).2) h2 hr
  | .decl x dims, d, D, D', E, hn, h, hr => by
    rw [runD] at hr ⊢
    simp only
    rw [evalD_congr (gap_get h)]
    cases he : evalD O T D.env dims with
    | none => rw [he] at hr; cases hr
    | some _ =>
      rw [he] at hr
      simp only at hr ⊢
      revert hr
      generalize hde : D.env = De at h
      cases h with
      | here _ => exact absurd (hn rfl) (by simp [naked])
      | push b h =>
        intro hr
        rw [envAdd] at hr
        cases hr
        exact ⟨_, rfl, .push _ h⟩
  | .assign x op e, d, D, D', E, hn, h, hr => by
    rw [runD] at hr ⊢
    simp only
    rw [evalD_congr (gap_get h)]
    split at hr
    · rename_i v is hv
      cases hp : put x v D.env with
      | none => rw [hp] at hr; cases hr
      | some env =>
        rw [hp] at hr
        cases hr
        obtain ⟨F, h1, h2⟩ := gap_put h hp
        exact ⟨F, by simp only [h1], h2⟩
    · cases hr
  | .mult l op r, d, D, D', E, hn, h, hr => by
    rw [runD] at hr ⊢
    cases ht : targets l with
    | none => rw [ht] at hr; cases hr
    | some xs =>
      rw [ht] at hr
      simp only at hr ⊢
      split at hr
      · rename_i D1 hv
        cases hr
        obtain ⟨F, h1, h2⟩ := gap_seq r xs [] D _ E h hv
        exact ⟨F, by rw [h1], h2⟩
      · cases hr
  | .emit as, d, D, D', E, hn, h, hr => by
    rw [runD] at hr ⊢
    simp only
    rw [evalD_congr (gap_get h)]
    cases he : evalD O T D.env as with
    | none => rw [he] at hr; cases hr
    | some rs => rw [he] at hr; cases hr; exact ⟨E, rfl, h⟩
  | .ifThen c t, d, D, D', E, hn, h, hr => by
    rw [runD] at hr ⊢
    cases hc : condD O T c D with
    | none => rw [hc] at hr; cases hr
    | some p =>
      obtain ⟨D1, b⟩ := p
      rw [hc] at hr
      obtain ⟨E1, h1, h2⟩ := cond_gap h hc
      rw [h1]
      cases b with
      | true => exact run_gap fuel t d D1 D' E1 hn h2 hr
      | false => cases hr; exact ⟨E1, rfl, h2⟩
  | .ifElse c t e, d, D, D', E, hn, h, hr => by
    simp only [naked, Bool.or_eq_false_iff] at hn
    rw [runD] at hr ⊢
    cases hc : condD O T c D with
    | none => rw [hc] at hr; cases hr
    | some p =>
      obtain ⟨D1, b⟩ := p
      rw [hc] at hr
      obtain ⟨E1, h1, h2⟩ := cond_gap h hc
      rw [h1]
      cases b with
      | true => exact run_gap fuel t d D1 D' E1 (fun h0 => (hn h0).1) h2 hr
      | false => exact run_gap fuel e d D1 D' E1 (fun h0 => (hn h0).2) h2 hr
  | .while pos c b, d, D, D', E, hn, h, hr => by
    rw [runD] at hr ⊢
    exact loop_gap (fun D D' E h hr => run_gap fuel b d D D' E hn h hr) fuel D D' E h hr
  | .block b, d, D, D', E, hn, h, hr => by
    rw [runD] at hr ⊢
    cases hb : runD O T fuel b ⟨[] :: D.env, D.log, D.insts⟩ with
    | none => rw [hb] at hr; cases hr
    | some D1 =>
      rw [hb] at hr
      cases hr
      obtain ⟨E1, h1, h2⟩ := run_gap fuel b (d + 1) ⟨[] :: D.env, D.log, D.insts⟩ D1 ([] :: E) (by simp)
        (.push [] h) hb
      simp only at h1
      rw [h1]
      revert h2
      generalize D1.env = e1
      intro h2
      cases h2 with
      | push b h2 => exact ⟨_, rfl, h2⟩
  | .init b, d, D, D', E, hn, h, hr => by
    rw [runD] at hr ⊢
    exact run_gap fuel b d D D' E hn h hr
  | .comp _ _, _, _, _, _, _, _, hr | .create _ _ _ _ _, _, _, _, _, _, _, hr
  | .input _ _ _ _, _, _, _, _, _, _, hr | .under _ _, _, _, _, _, _, _, hr => by cases hr

/-! ### Loops -/

/-- The counters of all loops. -/
def loops (N : Names) : SStmt → List Nat
  | .cons a b => loops N a ++ loops N b
  | .ifThen _ t => loops N t
  | .ifElse _ t e => loops N t ++ loops N e
  | .while pos _ b => N.loop pos :: loops N b
  | .block b | .init b => loops N b
  | _ => []

/-- What the body of a loop, and so a loop, does. -/
def Turns (O : Ops V) (T : Nat → Option Templ) (C L : List Nat) (K : Nat → Nat) (d : Nat)
    (r : PSt V → Option (PSt V)) (comps : List (Nat × Option Nat)) (vars : List Nat) (D' : DSt V)
    (P : PSt V) : Prop :=
  ∃ K' P' new, r P = some P' ∧ Rel O C L K' d D' P' ∧ (∀ l, K l ≤ K' l) ∧
    (∀ l, l ∉ vars → K' l = K l) ∧ P'.store.map (·.1) = P.store.map (·.1) ++ new ∧
    ∀ k ∈ new, ∃ c ∈ comps, c.1 = k.1 ∧ ∃ l ∈ vars, c.2 = some l ∧ k.2 < K' l

theorem name_eq {l : List (Nat × Option Nat)} (h : (l.map (·.1)).Nodup) {a b : Nat × Option Nat}
    (ha : a ∈ l) (hb : b ∈ l) (he : a.1 = b.1) : a = b := by
  exact List.inj_on_of_nodup_map h ha hb he

theorem fresh_next {K K' : Nat → Nat} {P P' : PSt V} {comps : List (Nat × Option Nat)} {vars : List Nat}
    {new : List (Nat × Nat)} (hn : (comps.map (·.1)).Nodup) (hf : Fresh K P comps) (hK : ∀ l, K l ≤ K' l)
    (hs : P'.store.map (·.1) = P.store.map (·.1) ++ new)
    (hk : ∀ k ∈ new, ∃ c ∈ comps, c.1 = k.1 ∧ ∃ l ∈ vars, c.2 = some l ∧ k.2 < K' l) : Fresh K' P' comps := by
  intro c hc m hm
  rw [hs] at hm
  rcases List.mem_append.mp hm with hm | hm
  · obtain ⟨l, h1, h2⟩ := hf c hc m hm
    exact ⟨l, h1, Nat.lt_of_lt_of_le h2 (hK l)⟩
  · obtain ⟨c', hc', he, l, _, hl, hlt⟩ := hk _ hm
    cases name_eq hn hc' hc he
    exact ⟨l, hl, hlt⟩

theorem loop_rel {d : Nat} {c : SExpr} {bD : DSt V → Option (DSt V)} {bP : PSt V → Option (PSt V)}
    {comps : List (Nat × Option Nat)} {vars : List Nat} (hn : (comps.map (·.1)).Nodup) (hC : C ⊆ L)
    (ha : hasAnon c = false) (hs : srcE L c = true) (hw : wf false c = true)
    (hb : ∀ K D P D', Rel O C L K d D P → Fresh K P comps → bD D = some D' →
      Turns O T C L K d bP comps vars D' P) :
    (n : Nat) → ∀ K D P D', Rel O C L K d D P → Fresh K P comps → loop (condD O T c) bD n D = some D' →
      Turns O T C L K d (loop (condP O T c) bP n) comps vars D' P
  | 0, K, D, P, D', hr, hf, h => by cases h
  | n + 1, K, D, P, D', hr, hf, h => by
    rw [loop] at h
    cases hc : condD O T c D with
    | none => rw [hc] at h; cases h
    | some p =>
      obtain ⟨D1, t⟩ := p
      obtain ⟨rfl, h1⟩ := cond_rel hr hC ha hs hw hc
      rw [hc] at h
      cases t with
      | false =>
        cases h
        refine ⟨K, P, [], ?_, hr, fun _ => Nat.le_refl _, fun _ _ => rfl, (List.append_nil _).symm, ?_⟩
        · rw [loop, h1]
        · intro k hk; cases hk
      | true =>
        simp only at h
        cases hq : bD D1 with
        | none => rw [hq] at h; cases h
        | some D2 =>
          rw [hq] at h
          obtain ⟨K1, P1, n1, r1, hr1, hk1, hv1, hs1, hn1⟩ := hb K D1 P D2 hr hf hq
          have hf1 := fresh_next hn hf hk1 hs1 hn1
          obtain ⟨K2, P2, n2, r2, hr2, hk2, hv2, hs2, hn2⟩ := loop_rel hn hC ha hs hw hb n K1 D2 P1 D' hr1 hf1 h
          refine ⟨K2, P2, n1 ++ n2, ?_, hr2, fun l => Nat.le_trans (hk1 l) (hk2 l),
            fun l hl => (hv2 l hl).trans (hv1 l hl), by rw [hs2, hs1, List.append_assoc], ?_⟩
          · rw [loop, h1]
            simp only
            rw [r1]
            exact r2
          · intro k hk
            rcases List.mem_append.mp hk with hk | hk
            · obtain ⟨c, hc, he, l, hl, h3, h4⟩ := hn1 k hk
              exact ⟨c, hc, he, l, hl, h3, Nat.lt_of_lt_of_le h4 (hk2 l)⟩
            · exact hn2 k hk

/-! ### Statements -/

theorem removeS_vars : (s : SStmt) → (acc : Option Nat) → (u : Upd) → removeS N T acc s = .ok u →
    u.comps = [] → u.vars = []
  | .nil, acc, u, h, hc => by rw [removeS] at h; cases h; rfl
  | .cons a b, acc, u, h, hc => by
    rw [removeS] at h
    cases ha : removeS N T acc a with
    | error x => rw [ha] at h; cases h
    | ok ua =>
      rw [ha] at h
      simp only at h
      cases hb : removeS N T acc b with
      | error x => rw [hb] at h; cases h
      | ok ub =>
        rw [hb] at h
        cases h
        obtain ⟨h1, h2⟩ := List.append_eq_nil_iff.mp hc
        exact List.append_eq_nil_iff.mpr ⟨removeS_vars a acc ua ha h1, removeS_vars b acc ub hb h2⟩
  | .assign x op e, acc, u, h, hc | .mult x op e, acc, u, h, hc => by
    rw [removeS] at h
    split at h
    · split at h <;> (cases h; rfl)
    · cases h
    · cases h
  | .ifThen c t, acc, u, h, hc => by
    rw [removeS] at h
    cases ha : removeS N T acc t with
    | error x => rw [ha] at h; cases h
    | ok ua => rw [ha] at h; cases h; exact removeS_vars t acc ua ha hc
  | .ifElse c t e, acc, u, h, hc => by
    rw [removeS] at h
    cases ha : removeS N T acc t with
    | error x => rw [ha] at h; cases h
    | ok ua =>
      rw [ha] at h
      simp only at h
      cases hb : removeS N T acc e with
      | error x => rw [hb] at h; cases h
      | ok ub =>
        rw [hb] at h
        cases h
        obtain ⟨h1, h2⟩ := List.append_eq_nil_iff.mp hc
        exact List.append_eq_nil_iff.mpr ⟨removeS_vars t acc ua ha h1, removeS_vars e acc ub hb h2⟩
  | .while pos c b, acc, u, h, hc => by
    rw [removeS] at h
    cases hb : removeS N T (some (N.loop pos)) b with
    | error x => rw [hb] at h; cases h
    | ok ub =>
      rw [hb] at h
      simp only at h
      split at h
      · rename_i hne; cases h; exact absurd hc hne
      · cases h; rfl
  | .block b, acc, u, h, hc | .init b, acc, u, h, hc => by
    rw [removeS] at h
    cases ha : removeS N T acc b with
    | error x => rw [ha] at h; cases h
    | ok ua => rw [ha] at h; cases h; exact removeS_vars b acc ua ha hc
  | .under _ _, acc, u, h, hc => by rw [removeS] at h; cases h
  | .decl _ _, acc, u, h, hc | .comp _ _, acc, u, h, hc | .create _ _ _ _ _, acc, u, h, hc
  | .input _ _ _ _, acc, u, h, hc | .emit _, acc, u, h, hc => by
    simp only [removeS] at h; cases h; rfl

/-- The counters declared are counters of loops. -/
theorem removeS_loops : (s : SStmt) → (acc : Option Nat) → (u : Upd) → removeS N T acc s = .ok u →
    List.Sublist u.vars (loops N s)
  | .nil, acc, u, h => by rw [removeS] at h; cases h; exact .slnil
  | .cons a b, acc, u, h => by
    rw [removeS] at h
    cases ha : removeS N T acc a with
    | error x => rw [ha] at h; cases h
    | ok ua =>
      rw [ha] at h
      simp only at h
      cases hb : removeS N T acc b with
      | error x => rw [hb] at h; cases h
      | ok ub =>
        rw [hb] at h
        cases h
        exact (removeS_loops a acc ua ha).append (removeS_loops b acc ub hb)
  | .assign x op e, acc, u, h | .mult x op e, acc, u, h => by
    rw [removeS] at h
    split at h
    · split at h <;> (cases h; exact List.nil_sublist _)
    · cases h
    · cases h
  | .ifThen c t, acc, u, h => by
    rw [removeS] at h
    cases ha : removeS N T acc t with
    | error x => rw [ha] at h; cases h
    | ok ua => rw [ha] at h; cases h; exact removeS_loops t acc ua ha
  | .ifElse c t e, acc, u, h => by
    rw [removeS] at h
    cases ha : removeS N T acc t with
    | error x => rw [ha] at h; cases h
    | ok ua =>
      rw [ha] at h
      simp only at h
      cases hb : removeS N T acc e with
      | error x => rw [hb] at h; cases h
      | ok ub =>
        rw [hb] at h
        cases h
        exact (removeS_loops t acc ua ha).append (removeS_loops e acc ub hb)
  | .while pos c b, acc, u, h => by
    rw [removeS] at h
    cases hb : removeS N T (some (N.loop pos)) b with
    | error x => rw [hb] at h; cases h
    | ok ub =>
      rw [hb] at h
      simp only at h
      split at h
      · cases h; exact (removeS_loops b _ ub hb).cons_cons _
      · cases h; exact List.nil_sublist _
  | .block b, acc, u, h | .init b, acc, u, h => by
    rw [removeS] at h
    cases ha : removeS N T acc b with
    | error x => rw [ha] at h; cases h
    | ok ua => rw [ha] at h; cases h; exact removeS_loops b acc ua ha
  | .under _ _, acc, u, h => by rw [removeS] at h; cases h
  | .decl _ _, acc, u, h | .comp _ _, acc, u, h | .create _ _ _ _ _, acc, u, h
  | .input _ _ _ _, acc, u, h | .emit _, acc, u, h => by
    simp only [removeS] at h; cases h; exact List.nil_sublist _

theorem keys_mono {comps comps' : List (Nat × Option Nat)} {vars vars' : List Nat} {acc : Option Nat}
    {K K' K'' : Nat → Nat} {new : List (Nat × Nat)} (h : Keys comps vars acc K K' new) (hc : comps ⊆ comps')
    (hv : vars ⊆ vars') (hK : ∀ l, K' l ≤ K'' l) : Keys comps' vars' acc K K'' new := by
  intro k hk
  obtain ⟨c, h1, h2, h3⟩ := h k hk
  refine ⟨c, hc h1, h2, ?_⟩
  rcases h3 with h3 | ⟨l, h4, h5, h6⟩
  · exact .inl h3
  · exact .inr ⟨l, hv h4, h5, Nat.lt_of_lt_of_le h6 (hK l)⟩

theorem does_mono {K : Nat → Nat} {d fuel : Nat} {acc : Option Nat} {s : SStmt}
    {comps comps' : List (Nat × Option Nat)} {vars vars' : List Nat} {D' : DSt V} {P : PSt V}
    (h : Does O T C L K d fuel acc s comps vars D' P) (hc : comps ⊆ comps') (hv : vars ⊆ vars') :
    Does O T C L K d fuel acc s comps' vars' D' P := by
  obtain ⟨K', P', new, h1, h2, h3, h4, h5, h6⟩ := h
  exact ⟨K', P', new, h1, h2, h3, fun l hl => h4 l (fun hm => hl (hv hm)), h5,
    keys_mono h6 hc hv (fun _ => Nat.le_refl _)⟩

theorem fresh_mono {K : Nat → Nat} {P : PSt V} {a b : List (Nat × Option Nat)} (h : Fresh K P b) (hs : a ⊆ b) :
    Fresh K P a := fun c hc => h c (hs hc)

/-- A statement that makes no instances. -/
theorem does_none {K : Nat → Nat} {d fuel : Nat} {acc : Option Nat} {s : SStmt}
    {comps : List (Nat × Option Nat)} {vars : List Nat} {D' : DSt V} {P P' : PSt V}
    (h : runP O T fuel s P = some P') (hs : P'.store = P.store) (hr : Rel O C L K d D' P') :
    Does O T C L K d fuel acc s comps vars D' P :=
  ⟨K, P', [], h, hr, fun _ => Nat.le_refl _, fun _ _ => rfl, by rw [hs, List.append_nil],
    fun k hk => by cases hk⟩

end Verif.Anon
