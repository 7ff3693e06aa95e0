import Verif.AnonTop

/-!
The pass ends with a report or a template, never with an abort.
-/

namespace Verif.Anon

set_option linter.unusedSimpArgs false
set_option linter.unusedVariables false

/-- The length of a chain. -/
def count : SExpr → Nat
  | .cons _ r => count r + 1
  | _ => 0

/-- Inputs given by name come with as many expressions as names (lang.lalrpop:588-606, 719-728). -/
def matched : SExpr → Bool
  | .cons e r => matched e && matched r
  | .op _ _ as => matched as
  | .array es | .tuple es => matched es
  | .anon _ _ ps (some m) ss _ => decide (m.length = count ss) && matched ss
  | .anon _ _ ps none ss _ => matched ss
  | .par e => matched e
  | _ => true

/-- The same for statements. -/
def matchedS : SStmt → Bool
  | .cons a b => matchedS a && matchedS b
  | .assign _ _ e | .mult _ _ e => matched e
  | .ifThen _ t => matchedS t
  | .ifElse _ t e => matchedS t && matchedS e
  | .while _ _ b | .block b | .init b => matchedS b
  | _ => true

theorem checkE_total : (e : SExpr) → checkE e ≠ .error .panic
  | .nil | .num _ | .var _ | .out _ _ _ | .succ _ => by simp [checkE]
  | .cons e r => by
    have h1 := checkE_total e
    have h2 := checkE_total r
    rw [checkE]
    split
    · rename_i x hx
      rw [hx] at h1
      exact h1
    · exact h2
  | .op _ _ as => by rw [checkE]; split <;> simp
  | .array es | .tuple es => by rw [checkE]; exact checkE_total es
  | .anon _ _ ps _ ss _ => by
    rw [checkE]
    split
    · simp
    · exact checkE_total ss
  | .par e => by
    rw [checkE]
    split
    · simp
    · split <;> simp

theorem checkS_total {L : List Nat} : (s : SStmt) → srcS L s = true → checkS s ≠ .error .panic
  | .nil, _ | .comp _ _, _ | .create _ _ _ _ _, _ => by simp [checkS]
  | .cons a b, h => by
    simp only [srcS, Bool.and_eq_true] at h
    have h1 := checkS_total a h.1
    have h2 := checkS_total b h.2
    rw [checkS]
    split
    · rename_i x hx
      rw [hx] at h1
      exact h1
    · exact h2
  | .decl _ dims, _ => by rw [checkS]; split <;> simp
  | .assign _ op e, _ => by
    rw [checkS]
    split
    · simp
    · exact checkE_total e
  | .input _ _ _ _, h | .under _ _, h => by simp [srcS] at h
  | .mult l op r, _ => by
    rw [checkS]
    split
    · simp
    · split
      · simp
      · exact checkE_total r
  | .emit as, _ => by rw [checkS]; split <;> simp
  | .ifThen c t, h => by
    simp only [srcS, Bool.and_eq_true] at h
    rw [checkS]
    split
    · simp
    · exact checkS_total t h.2
  | .ifElse c t e, h => by
    simp only [srcS, Bool.and_eq_true] at h
    have h1 := checkS_total t h.1.2
    have h2 := checkS_total e h.2
    rw [checkS]
    split
    · simp
    · split
      · rename_i x hx
        rw [hx] at h1
        exact h1
      · exact h2
  | .while _ c b, h => by
    simp only [srcS, Bool.and_eq_true] at h
    rw [checkS]
    split
    · simp
    · exact checkS_total b h.1.2
  | .block b, h | .init b, h => by
    rw [checkS]
    exact checkS_total b h

variable {N : Names} {T : Nat → Option Templ}

theorem removeE_count {acc : Option Nat} : (e : SExpr) → (rs : List Res) → removeE N T acc e = .ok rs →
    (wf false e = true → rs.length = 1) ∧ (wf true e = true → rs.length = count e)
  | .nil, rs, h => by
    rw [removeE] at h
    cases h
    exact ⟨fun h => by simp [wf] at h, fun _ => rfl⟩
  | .cons e r, rs, h => by
    refine ⟨fun h => by simp [wf] at h, fun hw => ?_⟩
    simp only [wf, Bool.and_eq_true] at hw
    rw [removeE] at h
    cases he : removeE N T acc e with
    | error x => rw [he] at h; cases h
    | ok re =>
      rw [he] at h
      simp only at h
      cases hr : removeE N T acc r with
      | error x => rw [hr] at h; cases h
      | ok rr =>
        rw [hr] at h
        cases h
        rw [List.length_append, (removeE_count e re he).1 hw.1, (removeE_count r rr hr).2 hw.2, count]
        omega
  | .num _, rs, h | .var _, rs, h | .out _ _ _, rs, h | .succ _, rs, h | .op _ _ _, rs, h => by
    simp only [removeE] at h
    cases h
    exact ⟨fun _ => rfl, fun h => by simp [wf] at h⟩
  | .array es, rs, h | .tuple es, rs, h => by
    rw [removeE] at h
    split at h
    · cases h
    · cases h
      exact ⟨fun _ => rfl, fun h => by simp [wf] at h⟩
  | .anon _ _ _ _ ss _, rs, h => by
    rw [removeE] at h
    split at h
    · cases h
    · split at h
      · cases h
      · cases h
        exact ⟨fun _ => rfl, fun h => by simp [wf] at h⟩
  | .par e, rs, h => by
    refine ⟨fun _ => ?_, fun h => by simp [wf] at h⟩
    cases e with
    | anon _ _ _ _ ss _ =>
      rw [removeE] at h
      split at h
      · cases h
      · split at h
        · cases h
        · cases h
          rfl
    | _ =>
      simp only [removeE] at h
      cases h
      rfl

theorem expand_total {acc : Option Nat} {pos t : Nat} {ps : SExpr} {names : Option (List (AOp × Nat))}
    {rs : List Res} {b : Bool} (h : ∀ m, names = some m → m.length = rs.length) :
    expand N T acc pos t ps names rs b ≠ .error .panic := by
  rw [expand]
  split
  · simp
  · split
    · rename_i e he
      intro hx
      cases hx
      unfold Verif.Anon.bind at he
      split at he
      · rename_i m
        split at he
        · cases he
        · split at he
          · cases he
          · split at he
            · cases he
            · split at he
              · rename_i hne
                exact hne (h m rfl).symm
              · simp only at he
                split at he <;> cases he
      · split at he <;> cases he
    · simp

theorem anon_total {acc : Option Nat} {pos t : Nat} {ps : SExpr} {names : Option (List (AOp × Nat))}
    {ss : SExpr} {b : Bool} (hw : wf true ss = true) (h : ∀ m, names = some m → m.length = count ss)
    (ih : removeE N T acc ss ≠ .error .panic) :
    (match removeE N T acc ss with
      | .error x => .error x
      | .ok rs =>
        match expand N T acc pos t ps names rs b with
        | .error x => .error x
        | .ok r => .ok [r]) ≠ (.error .panic : Except Err (List Res)) := by
  split
  · rename_i x hx
    rw [hx] at ih
    intro e
    cases e
    exact ih rfl
  · rename_i rs hrs
    have := expand_total (N := N) (T := T) (acc := acc) (pos := pos) (t := t) (ps := ps) (b := b) (rs := rs)
      (names := names) (fun m hm => (h m hm).trans ((removeE_count ss rs hrs).2 hw).symm)
    split
    · rename_i x hx
      rw [hx] at this
      intro e
      cases e
      exact this rfl
    · simp

theorem removeE_total {acc : Option Nat} : (e : SExpr) → (c : Bool) → wf c e = true → matched e = true →
    removeE N T acc e ≠ .error .panic
  | .nil, _, _, _ => by simp [removeE]
  | .cons e r, c, hw, hm => by
    cases c with
    | false => simp [wf] at hw
    | true =>
      simp only [wf, matched, Bool.and_eq_true] at hw hm
      have h1 := removeE_total (acc := acc) e false hw.1 hm.1
      have h2 := removeE_total (acc := acc) r true hw.2 hm.2
      rw [removeE]
      split
      · rename_i x hx
        rw [hx] at h1
        intro e
        cases e
        exact h1 rfl
      · split
        · rename_i x hx
          rw [hx] at h2
          intro e
          cases e
          exact h2 rfl
        · simp
  | .num _, _, _, _ | .var _, _, _, _ | .out _ _ _, _, _, _ | .succ _, _, _, _ | .op _ _ _, _, _, _ => by
    simp [removeE]
  | .array es, c, hw, hm | .tuple es, c, hw, hm => by
    cases c with
    | true => simp [wf] at hw
    | false =>
      simp only [wf, matched] at hw hm
      have h1 := removeE_total (acc := acc) es true hw hm
      rw [removeE]
      split
      · rename_i x hx
        rw [hx] at h1
        intro e
        cases e
        exact h1 rfl
      · simp
  | .anon _ _ ps names ss _, c, hw, hm => by
    cases c with
    | true => simp [wf] at hw
    | false =>
      simp only [wf, Bool.and_eq_true] at hw
      rw [removeE]
      cases names with
      | none =>
        simp only [matched] at hm
        exact anon_total hw.2 (fun m h => by cases h) (removeE_total ss true hw.2 hm)
      | some m =>
        simp only [matched, Bool.and_eq_true, decide_eq_true_eq] at hm
        exact anon_total hw.2 (fun m' h => by cases h; exact hm.1) (removeE_total ss true hw.2 hm.2)
  | .par (.anon _ _ ps names ss _), c, hw, hm => by
    cases c with
    | true => simp [wf] at hw
    | false =>
      simp only [wf, Bool.and_eq_true] at hw
      rw [removeE]
      cases names with
      | none =>
        simp only [matched] at hm
        exact anon_total hw.2 (fun m h => by cases h) (removeE_total ss true hw.2 hm)
      | some m =>
        simp only [matched, Bool.and_eq_true, decide_eq_true_eq] at hm
        exact anon_total hw.2 (fun m' h => by cases h; exact hm.1) (removeE_total ss true hw.2 hm.2)
  | .par .nil, _, _, _ | .par (.num _), _, _, _ | .par (.out _ _ _), _, _, _ | .par (.succ _), _, _, _
  | .par (.var _), _, _, _ | .par (.cons _ _), _, _, _ | .par (.op _ _ _), _, _, _ | .par (.array _), _, _, _
  | .par (.tuple _), _, _, _ | .par (.par _), _, _, _ => by simp [removeE]

theorem err_total {α β : Type} {x : Except Err α} (h : x ≠ .error .panic) {e : Err} (he : x = .error e) :
    (.error e : Except Err β) ≠ .error .panic := by
  intro h'
  cases h'
  exact h he

theorem removeS_total {L : List Nat} : (s : SStmt) → (acc : Option Nat) → srcS L s = true → wfS s = true →
    matchedS s = true → removeS N T acc s ≠ .error .panic
  | .nil, acc, _, _, _ => by simp [removeS]
  | .cons a b, acc, hs, hw, hm => by
    simp only [srcS, wfS, matchedS, Bool.and_eq_true] at hs hw hm
    rw [removeS]
    have h1 := removeS_total a acc hs.1 hw.1 hm.1
    have h2 := removeS_total b acc hs.2 hw.2 hm.2
    split
    · rename_i x hx; exact err_total h1 hx
    · split
      · rename_i x hx; exact err_total h2 hx
      · simp
  | .decl _ _, acc, _, _, _ | .emit _, acc, _, _, _ => by simp [removeS]
  | .assign x op e, acc, hs, hw, hm => by
    simp only [wfS, matchedS] at hw hm
    have h1 := removeE_total (N := N) (T := T) (acc := acc) e false hw hm
    rw [removeS]
    split
    · split <;> simp
    · rename_i rs hne hrs
      have := (removeE_count e rs hrs).1 hw
      match rs, this with
      | [r], _ => exact absurd rfl (hne r)
    · rename_i x hx
      rw [hx] at h1
      intro e
      cases e
      exact h1 rfl
  | .mult l op e, acc, hs, hw, hm => by
    simp only [wfS, matchedS, Bool.and_eq_true] at hw hm
    have h1 := removeE_total (N := N) (T := T) (acc := acc) e false hw.2 hm
    rw [removeS]
    split
    · split <;> simp
    · rename_i rs hne hrs
      have := (removeE_count e rs hrs).1 hw.2
      match rs, this with
      | [r], _ => exact absurd rfl (hne r)
    · rename_i x hx
      rw [hx] at h1
      intro e
      cases e
      exact h1 rfl
  | .ifThen c t, acc, hs, hw, hm => by
    simp only [srcS, wfS, matchedS, Bool.and_eq_true] at hs hw hm
    rw [removeS]
    have h1 := removeS_total t acc hs.2 hw.2 hm
    split
    · rename_i x hx; exact err_total h1 hx
    · simp
  | .ifElse c t e, acc, hs, hw, hm => by
    simp only [srcS, wfS, matchedS, Bool.and_eq_true] at hs hw hm
    rw [removeS]
    have h1 := removeS_total t acc hs.1.2 hw.1.2 hm.1
    have h2 := removeS_total e acc hs.2 hw.2 hm.2
    split
    · rename_i x hx; exact err_total h1 hx
    · split
      · rename_i x hx; exact err_total h2 hx
      · simp
  | .while pos c b, acc, hs, hw, hm => by
    simp only [srcS, wfS, matchedS, Bool.and_eq_true] at hs hw hm
    have h1 := removeS_total b (some (N.loop pos)) hs.1.2 hw.2 hm
    rw [removeS]
    split
    · rename_i x hx
      rw [hx] at h1
      exact h1
    · split <;> simp
  | .block b, acc, hs, hw, hm => by
    rw [removeS]
    have h1 := removeS_total b acc hs hw hm
    split
    · rename_i x hx; exact err_total h1 hx
    · simp
  | .init b, acc, hs, hw, hm => by
    rw [removeS]
    have h1 := removeS_total b acc hs hw hm
    split
    · rename_i x hx; exact err_total h1 hx
    · simp
  | .comp _ _, _, hs, _, _ | .create _ _ _ _ _, _, hs, _, _ | .input _ _ _ _, _, hs, _, _
  | .under _ _, _, hs, _, _ => by simp [srcS] at hs

/-- No statement `UnderscoreSubstitution`. -/
def noUnder : SStmt → Bool
  | .under _ _ => false
  | .cons a b => noUnder a && noUnder b
  | .ifThen _ t => noUnder t
  | .ifElse _ t e => noUnder t && noUnder e
  | .while _ _ b | .block b | .init b => noUnder b
  | _ => true

theorem noUnder_chain (l : List SStmt) : noUnder (chain l) = l.all noUnder := by
  induction l with
  | nil => rfl
  | cons a l ih => simp [chain, noUnder, ih]

theorem expand_under {acc : Option Nat} {pos t : Nat} {ps : SExpr} {names : Option (List (AOp × Nat))}
    {rs : List Res} {b : Bool} {r : Res} (hx : expand N T acc pos t ps names rs b = .ok r)
    (ih : ∀ r ∈ rs, r.stmts.all noUnder = true) : r.stmts.all noUnder = true := by
  rw [expand] at hx
  split at hx
  · cases hx
  · split at hx
    · cases hx
    · rename_i tm htm ins hins
      cases hx
      simp only [List.all_cons, List.all_nil, Bool.and_true, noUnder, noUnder_chain, Bool.true_and, List.all_flatMap,
        List.all_append, List.all_eq_true, Bool.and_eq_true]
      intro x hxm
      have : x.2 ∈ rs := bind_mem hins x hxm
      exact List.all_eq_true.mp (ih _ this)

theorem removeE_under {acc : Option Nat} : (e : SExpr) → (rs : List Res) → removeE N T acc e = .ok rs →
    ∀ r ∈ rs, r.stmts.all noUnder = true
  | .nil, rs, h => by
    rw [removeE] at h
    cases h
    intro r hr
    cases hr
  | .cons e r, rs, h => by
    rw [removeE] at h
    cases he : removeE N T acc e with
    | error x => rw [he] at h; cases h
    | ok re =>
      rw [he] at h
      simp only at h
      cases hr : removeE N T acc r with
      | error x => rw [hr] at h; cases h
      | ok rr =>
        rw [hr] at h
        cases h
        intro x hx
        rcases List.mem_append.mp hx with hx | hx
        · exact removeE_under e re he x hx
        · exact removeE_under r rr hr x hx
  | .num _, rs, h | .var _, rs, h | .out _ _ _, rs, h | .succ _, rs, h | .op _ _ _, rs, h => by
    simp only [removeE] at h
    cases h
    intro r hr
    rw [List.mem_singleton.mp hr]
    rfl
  | .array es, rs, h | .tuple es, rs, h => by
    rw [removeE] at h
    split at h
    · cases h
    · rename_i rs' hrs
      cases h
      intro r hr
      rw [List.mem_singleton.mp hr]
      simp only [List.all_flatMap, List.all_eq_true]
      intro r' hr'
      exact List.all_eq_true.mp (removeE_under es rs' hrs r' hr')
  | .anon _ _ _ _ ss _, rs, h => by
    rw [removeE] at h
    split at h
    · cases h
    · rename_i rs' hrs
      split at h
      · cases h
      · rename_i r' hr'
        cases h
        intro r hr
        rw [List.mem_singleton.mp hr]
        exact expand_under hr' (removeE_under ss rs' hrs)
  | .par e, rs, h => by
    cases e with
    | anon _ _ _ _ ss _ =>
      rw [removeE] at h
      split at h
      · cases h
      · rename_i rs' hrs
        split at h
        · cases h
        · rename_i r' hr'
          cases h
          intro r hr
          rw [List.mem_singleton.mp hr]
          exact expand_under hr' (removeE_under ss rs' hrs)
    | _ =>
      simp only [removeE] at h
      cases h
      intro r hr
      rw [List.mem_singleton.mp hr]
      rfl

theorem checkTE_total : (e : SExpr) → hasAnon e = false → checkTE e ≠ .error .panic
  | .nil, _ | .num _, _ | .var _, _ | .out _ _ _, _ | .succ _, _ => by simp [checkTE]
  | .cons e r, h => by
    simp only [hasAnon, Bool.or_eq_false_iff] at h
    have h1 := checkTE_total e h.1
    have h2 := checkTE_total r h.2
    rw [checkTE]
    split
    · rename_i x hx
      rw [hx] at h1
      exact h1
    · exact h2
  | .op _ _ as, _ | .array as, _ | .par as, _ => by rw [checkTE]; split <;> simp
  | .tuple es, h => by rw [checkTE]; exact checkTE_total es h
  | .anon _ _ _ _ _ _, h => by simp [hasAnon] at h

theorem checkTS_total : (s : SStmt) → bare s = true → noUnder s = true → checkTS s ≠ .error .panic
  | .nil, _, _ | .comp _ _, _, _ => by simp [checkTS]
  | .cons a b, h, hu => by
    simp only [bare, noUnder, Bool.and_eq_true] at h hu
    have h1 := checkTS_total a h.1 hu.1
    have h2 := checkTS_total b h.2 hu.2
    rw [checkTS]
    split
    · rename_i x hx
      rw [hx] at h1
      exact h1
    · exact h2
  | .decl _ _, _, _ | .create _ _ _ _ _, _, _ | .emit _, _, _ => by rw [checkTS]; split <;> simp
  | .assign _ _ e, h, _ | .input _ _ _ e, h, _ => by
    rw [checkTS]
    exact checkTE_total e (by simpa [bare] using h)
  | .under _ _, _, hu => by simp [noUnder] at hu
  | .mult l _ r, h, _ => by
    simp only [bare, Bool.and_eq_true, Bool.not_eq_true'] at h
    have h1 := checkTE_total l h.1
    have h2 := checkTE_total r h.2
    rw [checkTS]
    split
    · rename_i x hx
      rw [hx] at h1
      exact h1
    · exact h2
  | .ifThen c t, h, hu => by
    simp only [bare, noUnder, Bool.and_eq_true] at h hu
    rw [checkTS]
    split
    · simp
    · exact checkTS_total t h.2 hu
  | .ifElse c t e, h, hu => by
    simp only [bare, noUnder, Bool.and_eq_true] at h hu
    have h1 := checkTS_total t h.1.2 hu.1
    have h2 := checkTS_total e h.2 hu.2
    rw [checkTS]
    split
    · simp
    · split
      · rename_i x hx
        rw [hx] at h1
        exact h1
      · exact h2
  | .while _ c b, h, hu => by
    simp only [bare, noUnder, Bool.and_eq_true] at h hu
    rw [checkTS]
    split
    · simp
    · exact checkTS_total b h.2 hu
  | .block b, h, hu | .init b, h, hu => by
    rw [checkTS]
    exact checkTS_total b h hu

theorem split_total {op : AOp} (ls rs : List SExpr) : split op ls rs ≠ .error .panic := by
  fun_induction split op ls rs with
  | case1 x ls r rs e he ih =>
    intro h
    cases h
    exact ih he
  | case2 => simp
  | case3 => simp
  | case4 => simp

theorem removeT_total : (s : SStmt) → noUnder s = true → removeT s ≠ .error .panic
  | .nil, _ | .comp _ _, _ | .decl _ _, _ | .create _ _ _ _ _, _ | .emit _, _ => by simp [removeT]
  | .cons a b, hu => by
    simp only [noUnder, Bool.and_eq_true] at hu
    rw [removeT]
    have h1 := removeT_total a hu.1
    have h2 := removeT_total b hu.2
    split
    · rename_i x hx; exact err_total h1 hx
    · split
      · rename_i x hx; exact err_total h2 hx
      · simp
  | .assign _ _ e, _ | .input _ _ _ e, _ => by rw [removeT]; split <;> simp
  | .under _ _, hu => by simp [noUnder] at hu
  | .mult l op r, _ => by
    rw [removeT]
    split
    · split
      · have := split_total (op := op) (flat l) (flat r)
        split
        · rename_i x hx
          rw [hx] at this
          intro e
          cases e
          exact this rfl
        · simp
      · simp
    · simp
  | .ifThen c t, hu => by
    rw [removeT]
    have h1 := removeT_total t hu
    split
    · rename_i x hx; exact err_total h1 hx
    · simp
  | .ifElse c t e, hu => by
    simp only [noUnder, Bool.and_eq_true] at hu
    rw [removeT]
    have h1 := removeT_total t hu.1
    have h2 := removeT_total e hu.2
    split
    · rename_i x hx; exact err_total h1 hx
    · split
      · rename_i x hx; exact err_total h2 hx
      · simp
  | .while pos c b, hu => by
    rw [removeT]
    have h1 := removeT_total b hu
    split
    · rename_i x hx; exact err_total h1 hx
    · simp
  | .block b, hu => by
    rw [removeT]
    have h1 := removeT_total b hu
    split
    · rename_i x hx; exact err_total h1 hx
    · simp
  | .init b, hu => by
    rw [removeT]
    have h1 := removeT_total b hu
    split
    · rename_i x hx; exact err_total h1 hx
    · simp

theorem removeS_under {L : List Nat} : (s : SStmt) → (acc : Option Nat) → (u : Upd) → srcS L s = true →
    removeS N T acc s = .ok u → noUnder u.stmt = true ∧ u.subs.all noUnder = true
  | .nil, acc, u, _, h => by rw [removeS] at h; cases h; exact ⟨rfl, rfl⟩
  | .cons a b, acc, u, hs, h => by
    simp only [srcS, Bool.and_eq_true] at hs
    rw [removeS] at h
    cases ha : removeS N T acc a with
    | error x => rw [ha] at h; cases h
    | ok ua =>
      rw [ha] at h
      simp only at h
      cases hb : removeS N T acc b with
      | error x => rw [hb] at h; cases h
      | ok ub =>
        rw [hb] at h
        cases h
        obtain ⟨h1, h2⟩ := removeS_under a acc ua hs.1 ha
        obtain ⟨h3, h4⟩ := removeS_under b acc ub hs.2 hb
        exact ⟨by simp [noUnder, h1, h3], by rw [List.all_append, h2, h4]; rfl⟩
  | .decl _ _, acc, u, _, h | .emit _, acc, u, _, h => by
    simp only [removeS] at h; cases h; exact ⟨rfl, rfl⟩
  | .assign x op e, acc, u, hs, h | .mult x op e, acc, u, hs, h => by
    rw [removeS] at h
    split at h
    · rename_i r hr
      have := removeE_under e _ hr r List.mem_cons_self
      split at h
      · cases h; exact ⟨rfl, rfl⟩
      · cases h
        refine ⟨?_, rfl⟩
        simp only [noUnder, noUnder_chain, List.all_append, this, List.all_cons, List.all_nil, Bool.and_true]
    · cases h
    · cases h
  | .ifThen c t, acc, u, hs, h => by
    simp only [srcS, Bool.and_eq_true] at hs
    rw [removeS] at h
    split at h
    · cases h
    · rename_i ut ht
      cases h
      exact removeS_under t acc ut hs.2 ht
  | .ifElse c t e, acc, u, hs, h => by
    simp only [srcS, Bool.and_eq_true] at hs
    rw [removeS] at h
    cases ha : removeS N T acc t with
    | error x => rw [ha] at h; cases h
    | ok ua =>
      rw [ha] at h
      simp only at h
      cases hb : removeS N T acc e with
      | error x => rw [hb] at h; cases h
      | ok ub =>
        rw [hb] at h
        cases h
        obtain ⟨h1, h2⟩ := removeS_under t acc ua hs.1.2 ha
        obtain ⟨h3, h4⟩ := removeS_under e acc ub hs.2 hb
        exact ⟨by simp [noUnder, h1, h3], by rw [List.all_append, h2, h4]; rfl⟩
  | .while pos c b, acc, u, hs, h => by
    simp only [srcS, Bool.and_eq_true] at hs
    rw [removeS] at h
    split at h
    · cases h
    · rename_i ub hb
      obtain ⟨h1, h2⟩ := removeS_under b _ ub hs.1.2 hb
      split at h
      · cases h
        exact ⟨by simp [noUnder, chain, h1], by simp [h2, noUnder]⟩
      · cases h
        exact ⟨h1, rfl⟩
  | .block b, acc, u, hs, h | .init b, acc, u, hs, h => by
    rw [removeS] at h
    split at h
    · cases h
    · rename_i ub hb
      cases h
      exact removeS_under b acc ub hs hb
  | .comp _ _, _, _, hs, _ | .create _ _ _ _ _, _, _, hs, _ | .input _ _ _ _, _, _, hs, _
  | .under _ _, _, _, hs, _ => by simp [srcS] at hs

theorem desugar_total {L : List Nat} {b : SStmt} (hs : srcS L b = true) (hw : wfS b = true)
    (hm : matchedS b = true) (hp : parOkS b = true) : desugar N T b ≠ .error .panic := by
  rw [desugar]
  have h1 := checkS_total b hs
  have h2 := removeS_total (N := N) (T := T) b none hs hw hm
  split
  · rename_i x hx
    rw [hx] at h1
    intro e
    cases e
    exact h1 rfl
  · rename_i hc
    split
    · rename_i x hx
      rw [hx] at h2
      intro e
      cases e
      exact h2 rfl
    · rename_i u hu
      obtain ⟨g1, g2, g3⟩ := removeS_fine N T b none u hu hc hp hw
      obtain ⟨g4, g5⟩ := removeS_under b none u hs hu
      have hun : noUnder (withInits u) = true := by
        simp only [withInits, noUnder, noUnder_chain, List.all_append, List.all_cons, List.all_nil, List.all_map,
          Bool.and_true, Bool.and_eq_true, g4, g5, List.all_eq_true, and_true]
        exact ⟨fun x _ => rfl, fun x _ => rfl⟩
      have hba : bare (withInits u) = true := by
        simp only [withInits, bare, bare_chain, List.all_append, List.all_cons, List.all_nil,
          List.all_map, Bool.and_true, Bool.and_eq_true, List.all_eq_true]
        exact ⟨⟨⟨fun x _ => rfl, fun x _ => rfl⟩, fun s hs => (g3 s hs).1⟩, g1⟩
      have h3 := checkTS_total _ hba hun
      have h4 := removeT_total _ hun
      split
      · rename_i x hx
        rw [hx] at h3
        intro e
        cases e
        exact h3 rfl
      · exact h4

end Verif.Anon
