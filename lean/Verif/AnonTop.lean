import Verif.AnonMain

/-!
The run of a template before the removal of anonymous components and tuples and the run after it: removal
of tuples, declarations of the counters, whole templates.
-/

namespace Verif.Anon

open Verif.Exec (envGet envSet envAdd blockGet blockSet)

set_option linter.unusedSimpArgs false
set_option linter.unusedVariables false

variable {V : Type} {O : Ops V} {T : Nat → Option Templ} {N : Names} {L C : List Nat}

/-! ### Removal of tuples -/

theorem targets_flat : (l : SExpr) → (xs : List Nat) → targets l = some xs → flat l = xs.map .var
  | .nil, xs, h => by rw [targets] at h; cases h; rfl
  | .cons e r, xs, h => by
    rw [targets] at h
    cases h1 : targets e with
    | none => rw [h1] at h; cases h
    | some a =>
      rw [h1] at h
      simp only at h
      cases h2 : targets r with
      | none => rw [h2] at h; cases h
      | some b =>
        rw [h2] at h
        cases h
        rw [flat, targets_flat e a h1, targets_flat r b h2, List.map_append]
  | .var x, xs, h => by rw [targets] at h; cases h; rfl
  | .tuple es, xs, h => by rw [targets] at h; rw [flat]; exact targets_flat es xs h
  | .num _, xs, h | .out _ _ _, xs, h | .succ _, xs, h | .op _ _ _, xs, h | .array _, xs, h
  | .anon _ _ _ _ _ _, xs, h | .par _, xs, h => by simp [targets] at h

theorem split_run {op : AOp} (fuel : Nat) : (xs : List Nat) → (es : List SExpr) → (ss : List SStmt) →
    (st st' : PSt V) → split op (xs.map .var) es = .ok ss → putEach O T op xs es st = some st' →
    runP O T fuel (chain ss) st = some st'
  | [], [], ss, st, st', h, hp => by
    simp only [List.map_nil, split] at h
    cases h
    rw [putEach] at hp
    cases hp
    rfl
  | [], _ :: _, ss, st, st', h, hp => by simp [split] at h
  | _ :: _, [], ss, st, st', h, hp => by simp [split] at h
  | x :: xs, e :: es, ss, st, st', h, hp => by
    rw [List.map_cons, split] at h
    cases hs : split op (xs.map .var) es with
    | error x => rw [hs] at h; cases h
    | ok rest =>
      rw [hs] at h
      simp only at h
      cases h
      rw [putEach] at hp
      cases he : evalP O T st.env st.store e with
      | none => rw [he] at hp; cases hp
      | some vs =>
        rw [he] at hp
        match vs, hp, he with
        | [v], hp, he =>
          simp only at hp
          cases hq : put x v st.env with
          | none => rw [hq] at hp; cases hp
          | some env =>
            rw [hq] at hp
            simp only at hp
            have ih := split_run fuel xs es rest _ st' hs hp
            simp only [chain, runP]
            by_cases h0 : x = underscore
            · subst h0
              simp only [ne_eq, not_true, if_false, runP, he]
              rw [put, if_pos rfl] at hq
              cases hq
              exact ih
            · simp only [ne_eq, h0, not_false_eq_true, if_true, runP, he, hq]
              exact ih
        | [], hp, _ => cases hp
        | _ :: _ :: _, hp, _ => cases hp

theorem loop_mono {σ : Type} {c : σ → Option (σ × Bool)} {b b' : σ → Option σ}
    (h : ∀ s s', b s = some s' → b' s = some s') : (n : Nat) → (s s' : σ) → loop c b n s = some s' →
    loop c b' n s = some s'
  | 0, s, s', hr => by cases hr
  | n + 1, s, s', hr => by
    rw [loop] at hr ⊢
    cases hc : c s with
    | none => rw [hc] at hr; cases hr
    | some p =>
      obtain ⟨s1, t⟩ := p
      rw [hc] at hr
      cases t with
      | false => exact hr
      | true =>
        simp only at hr ⊢
        cases hq : b s1 with
        | none => rw [hq] at hr; cases hr
        | some s2 =>
          rw [hq] at hr
          rw [h s1 s2 hq]
          exact loop_mono h n s2 s' hr

theorem removeT_run (fuel : Nat) : (s s' : SStmt) → removeT s = .ok s' → (st st' : PSt V) →
    runP O T fuel s st = some st' → runP O T fuel s' st = some st'
  | .cons a b, s', h, st, st', hr => by
    rw [removeT] at h
    cases ha : removeT a with
    | error x => rw [ha] at h; cases h
    | ok a' =>
      rw [ha] at h
      simp only at h
      cases hb : removeT b with
      | error x => rw [hb] at h; cases h
      | ok b' =>
        rw [hb] at h
        cases h
        rw [runP] at hr ⊢
        cases hq : runP O T fuel a st with
        | none => rw [hq] at hr; cases hr
        | some s1 =>
          rw [hq] at hr
          rw [removeT_run fuel a a' ha st s1 hq]
          exact removeT_run fuel b b' hb s1 st' hr
  | .assign x op e, s', h, st, st', hr => by
    rw [removeT] at h
    split at h
    · cases h
    · cases h
      by_cases h0 : x = underscore
      · subst h0
        rw [if_neg (by simp)]
        simp only [runP] at hr ⊢
        split at hr
        · rename_i v hv
          rw [put, if_pos rfl] at hr
          exact hr
        · cases hr
      · simp only [ne_eq, h0, not_false_eq_true, if_true]
        exact hr
  | .input _ _ _ e, s', h, st, st', hr => by
    rw [removeT] at h
    split at h
    · cases h
    · cases h; exact hr
  | .mult l op r, s', h, st, st', hr => by
    rw [removeT] at h
    split at h
    · split at h
      · cases hs : split op (flat l) (flat r) with
        | error x => rw [hs] at h; cases h
        | ok ss =>
          rw [hs] at h
          cases h
          rw [runP] at hr
          cases ht : targets l with
          | none => rw [ht] at hr; cases hr
          | some xs =>
            rw [ht] at hr
            simp only at hr
            rw [targets_flat l xs ht] at hs
            rw [runP, split_run fuel xs (flat r) ss _ _ hs (putEach_push _ _ _ _ hr)]
            rfl
      · cases h
    · cases h
  | .ifThen c t, s', h, st, st', hr => by
    rw [removeT] at h
    cases ha : removeT t with
    | error x => rw [ha] at h; cases h
    | ok t' =>
      rw [ha] at h
      cases h
      rw [runP] at hr ⊢
      cases hc : condP O T c st with
      | none => rw [hc] at hr; cases hr
      | some p =>
        obtain ⟨s1, b⟩ := p
        rw [hc] at hr
        cases b with
        | true => exact removeT_run fuel t t' ha s1 st' hr
        | false => exact hr
  | .ifElse c t e, s', h, st, st', hr => by
    rw [removeT] at h
    cases ha : removeT t with
    | error x => rw [ha] at h; cases h
    | ok t' =>
      rw [ha] at h
      simp only at h
      cases hb : removeT e with
      | error x => rw [hb] at h; cases h
      | ok e' =>
        rw [hb] at h
        cases h
        rw [runP] at hr ⊢
        cases hc : condP O T c st with
        | none => rw [hc] at hr; cases hr
        | some p =>
          obtain ⟨s1, b⟩ := p
          rw [hc] at hr
          cases b with
          | true => exact removeT_run fuel t t' ha s1 st' hr
          | false => exact removeT_run fuel e e' hb s1 st' hr
  | .while pos c b, s', h, st, st', hr => by
    rw [removeT] at h
    cases ha : removeT b with
    | error x => rw [ha] at h; cases h
    | ok b' =>
      rw [ha] at h
      cases h
      rw [runP] at hr ⊢
      exact loop_mono (fun s s1 hs => removeT_run fuel b b' ha s s1 hs) fuel st st' hr
  | .block b, s', h, st, st', hr => by
    rw [removeT] at h
    cases ha : removeT b with
    | error x => rw [ha] at h; cases h
    | ok b' =>
      rw [ha] at h
      cases h
      rw [runP] at hr ⊢
      cases hq : runP O T fuel b ⟨[] :: st.env, st.log, st.store⟩ with
      | none => rw [hq] at hr; cases hr
      | some s1 =>
        rw [hq] at hr
        rw [removeT_run fuel b b' ha _ s1 hq]
        exact hr
  | .init b, s', h, st, st', hr => by
    rw [removeT] at h
    cases ha : removeT b with
    | error x => rw [ha] at h; cases h
    | ok b' =>
      rw [ha] at h
      cases h
      rw [runP] at hr ⊢
      exact removeT_run fuel b b' ha st st' hr
  | .under _ _, s', h, st, st', hr => by rw [removeT] at h; cases h
  | .nil, s', h, st, st', hr | .decl _ _, s', h, st, st', hr | .comp _ _, s', h, st, st', hr
  | .create _ _ _ _ _, s', h, st, st', hr | .emit _, s', h, st, st', hr => by
    simp only [removeT] at h; cases h; exact hr

/-! ### Names -/

/-- The names of the components for the anonymous components in an expression. -/
def sites (N : Names) : SExpr → List Nat
  | .cons e r => sites N e ++ sites N r
  | .array es | .tuple es => sites N es
  | .anon pos t _ _ ss _ => N.comp t pos :: sites N ss
  | .par (.anon pos t _ _ ss _) => N.comp t pos :: sites N ss
  | _ => []

/-- The same for statements. -/
def sitesS (N : Names) : SStmt → List Nat
  | .cons a b => sitesS N a ++ sitesS N b
  | .assign _ _ e | .mult _ _ e => sites N e
  | .ifThen _ t => sitesS N t
  | .ifElse _ t e => sitesS N t ++ sitesS N e
  | .while _ _ b | .block b | .init b => sitesS N b
  | _ => []

theorem expand_sites (hT : ∀ t tm, T t = some tm → tm.inputs.Nodup) {acc : Option Nat} {pos t : Nat}
    {ps : SExpr} {names : Option (List (AOp × Nat))} {rs : List Res} {par : Bool} {r : Res} {w : List Nat}
    (hx : expand N T acc pos t ps names rs par = .ok r)
    (ih : ((rs.flatMap (·.comps)).map (·.1)).Perm w) : (r.comps.map (·.1)).Perm (N.comp t pos :: w) := by
  rw [expand] at hx
  cases ht : T t with
  | none => rw [ht] at hx; cases hx
  | some tm =>
    rw [ht] at hx
    simp only at hx
    cases hb : bind tm names rs with
    | error e => rw [hb] at hx; cases hx
    | ok ins =>
      rw [hb] at hx
      simp only at hx
      injection hx with hx
      subst hx
      obtain ⟨_, _, hp⟩ := bind_spec (hT t tm ht) hb
      simp only [List.map_cons]
      refine List.Perm.cons _ (List.Perm.trans ?_ ih)
      refine List.Perm.map _ ?_
      have : ins.flatMap (·.2.comps) = (ins.map (·.2)).flatMap (·.comps) := by
        rw [List.flatMap_map]
      rw [this]
      exact hp.flatMap_right _

theorem removeE_sites (hT : ∀ t tm, T t = some tm → tm.inputs.Nodup) {acc : Option Nat} (e : SExpr) :
    ∀ rs, removeE N T acc e = .ok rs → ((rs.flatMap (·.comps)).map (·.1)).Perm (sites N e) := by
  fun_induction removeE N T acc e with
  | case1 => intro rs h; cases h; exact .refl _
  | case2 => intro rs h; cases h
  | case3 => intro rs h; cases h
  | case4 e r re he rr hr ih1 ih2 =>
    intro rs h
    cases h
    rw [List.flatMap_append, List.map_append, sites]
    exact (ih1 _ he).append (ih2 _ hr)
  | case5 => intro rs h; cases h
  | case6 es re he ih =>
    intro rs h
    cases h
    simp only [List.flatMap_cons, List.flatMap_nil, List.append_nil, sites]
    exact ih _ he
  | case7 => intro rs h; cases h
  | case8 es re he ih =>
    intro rs h
    cases h
    simp only [List.flatMap_cons, List.flatMap_nil, List.append_nil, sites]
    exact ih _ he
  | case9 => intro rs h; cases h
  | case10 => intro rs h; cases h
  | case11 pos t ps names ss par re he r hx ih =>
    intro rs h
    cases h
    simp only [List.flatMap_cons, List.flatMap_nil, List.append_nil, sites]
    exact expand_sites hT hx (ih _ he)
  | case12 => intro rs h; cases h
  | case13 => intro rs h; cases h
  | case14 pos t ps names ss par re he r hx ih =>
    intro rs h
    cases h
    simp only [List.flatMap_cons, List.flatMap_nil, List.append_nil, sites]
    exact expand_sites hT hx (ih _ he)
  | case15 e h1 h2 h3 h4 h5 h6 =>
    intro rs h
    cases h
    have : sites N e = [] := by
      cases e with
      | nil => rfl
      | cons a b => exact absurd rfl (h2 a b)
      | array es => exact absurd rfl (h3 es)
      | tuple es => exact absurd rfl (h4 es)
      | anon a b c d e f => exact absurd rfl (h5 a b c d e f)
      | par e =>
        cases e with
        | anon a b c d e f => exact absurd rfl (h6 a b c d e f)
        | _ => rfl
      | _ => rfl
    rw [this]
    exact .refl _

theorem removeS_sites (hT : ∀ t tm, T t = some tm → tm.inputs.Nodup) : (s : SStmt) → (acc : Option Nat) →
    (u : Upd) → removeS N T acc s = .ok u → (u.comps.map (·.1)).Perm (sitesS N s)
  | .nil, acc, u, h => by rw [removeS] at h; cases h; exact .refl _
  | .cons a b, acc, u, h => by
    rw [removeS] at h
    cases ha : removeS N T acc a with
    | error x => rw [ha] at h; cases h
    | ok ua =>
      rw [ha] at h
      simp only at h
      cases hb : removeS N T acc b with
      | error x => rw [hb] at h; cases h
      | ok ub =>
        rw [hb] at h
        cases h
        simp only [List.map_append, sitesS]
        exact (removeS_sites hT a acc ua ha).append (removeS_sites hT b acc ub hb)
  | .assign x op e, acc, u, h | .mult x op e, acc, u, h => by
    rw [removeS] at h
    split at h
    · rename_i r hr
      have := removeE_sites hT e _ hr
      simp only [List.flatMap_cons, List.flatMap_nil, List.append_nil] at this
      split at h <;> (cases h; exact this)
    · cases h
    · cases h
  | .ifThen c t, acc, u, h => by
    rw [removeS] at h
    cases ha : removeS N T acc t with
    | error x => rw [ha] at h; cases h
    | ok ua => rw [ha] at h; cases h; exact removeS_sites hT t acc ua ha
  | .ifElse c t e, acc, u, h => by
    rw [removeS] at h
    cases ha : removeS N T acc t with
    | error x => rw [ha] at h; cases h
    | ok ua =>
      rw [ha] at h
      simp only at h
      cases hb : removeS N T acc e with
      | error x => rw [hb] at h; cases h
      | ok ub =>
        rw [hb] at h
        cases h
        simp only [List.map_append, sitesS]
        exact (removeS_sites hT t acc ua ha).append (removeS_sites hT e acc ub hb)
  | .while pos c b, acc, u, h => by
    rw [removeS] at h
    cases hb : removeS N T (some (N.loop pos)) b with
    | error x => rw [hb] at h; cases h
    | ok ub =>
      rw [hb] at h
      simp only at h
      split at h <;> (cases h; exact removeS_sites hT b _ ub hb)
  | .block b, acc, u, h | .init b, acc, u, h => by
    rw [removeS] at h
    cases ha : removeS N T acc b with
    | error x => rw [ha] at h; cases h
    | ok ua => rw [ha] at h; cases h; exact removeS_sites hT b acc ua ha
  | .under _ _, acc, u, h => by rw [removeS] at h; cases h
  | .decl _ _, acc, u, h | .comp _ _, acc, u, h | .create _ _ _ _ _, acc, u, h
  | .input _ _ _ _, acc, u, h | .emit _, acc, u, h => by
    simp only [removeS] at h; cases h; exact .refl _

/-- The initialisation of a counter. -/
def zero (l : Nat) : SStmt := .assign l .var (.num 0)

theorem removeS_subs : (s : SStmt) → (acc : Option Nat) → (u : Upd) → removeS N T acc s = .ok u →
    ∃ w : List Nat, u.subs = w.map zero ∧ w.Perm u.vars
  | .nil, acc, u, h => by rw [removeS] at h; cases h; exact ⟨[], rfl, .refl _⟩
  | .cons a b, acc, u, h => by
    rw [removeS] at h
    cases ha : removeS N T acc a with
    | error x => rw [ha] at h; cases h
    | ok ua =>
      rw [ha] at h
      simp only at h
      cases hb : removeS N T acc b with
      | error x => rw [hb] at h; cases h
      | ok ub =>
        rw [hb] at h
        cases h
        obtain ⟨w1, h1, h2⟩ := removeS_subs a acc ua ha
        obtain ⟨w2, h3, h4⟩ := removeS_subs b acc ub hb
        exact ⟨w1 ++ w2, by simp only [h1, h3, List.map_append], h2.append h4⟩
  | .assign x op e, acc, u, h | .mult x op e, acc, u, h => by
    rw [removeS] at h
    split at h
    · split at h <;> (cases h; exact ⟨[], rfl, .refl _⟩)
    · cases h
    · cases h
  | .ifThen c t, acc, u, h => by
    rw [removeS] at h
    cases ha : removeS N T acc t with
    | error x => rw [ha] at h; cases h
    | ok ua => rw [ha] at h; cases h; exact removeS_subs t acc ua ha
  | .ifElse c t e, acc, u, h => by
    rw [removeS] at h
    cases ha : removeS N T acc t with
    | error x => rw [ha] at h; cases h
    | ok ua =>
      rw [ha] at h
      simp only at h
      cases hb : removeS N T acc e with
      | error x => rw [hb] at h; cases h
      | ok ub =>
        rw [hb] at h
        cases h
        obtain ⟨w1, h1, h2⟩ := removeS_subs t acc ua ha
        obtain ⟨w2, h3, h4⟩ := removeS_subs e acc ub hb
        exact ⟨w1 ++ w2, by simp only [h1, h3, List.map_append], h2.append h4⟩
  | .while pos c b, acc, u, h => by
    rw [removeS] at h
    cases hb : removeS N T (some (N.loop pos)) b with
    | error x => rw [hb] at h; cases h
    | ok ub =>
      rw [hb] at h
      simp only at h
      split at h
      · cases h
        obtain ⟨w1, h1, h2⟩ := removeS_subs b _ ub hb
        refine ⟨w1 ++ [N.loop pos], by simp only [h1, List.map_append, List.map_cons, List.map_nil, zero], ?_⟩
        exact (List.perm_append_comm).trans (h2.cons _)
      · cases h; exact ⟨[], rfl, .refl _⟩
  | .block b, acc, u, h | .init b, acc, u, h => by
    rw [removeS] at h
    cases ha : removeS N T acc b with
    | error x => rw [ha] at h; cases h
    | ok ua => rw [ha] at h; cases h; exact removeS_subs b acc ua ha
  | .under _ _, acc, u, h => by rw [removeS] at h; cases h
  | .decl _ _, acc, u, h | .comp _ _, acc, u, h | .create _ _ _ _ _, acc, u, h
  | .input _ _ _ _, acc, u, h | .emit _, acc, u, h => by
    simp only [removeS] at h; cases h; exact ⟨[], rfl, .refl _⟩

/-! ### Counters -/

theorem run_decls (fuel : Nat) (log : List (Ev V)) (st : Store V) (env : List (List (Nat × V))) :
    (vars : List Nat) → (b : List (Nat × V)) →
    runP O T fuel (chain (vars.map fun x => .decl x .nil)) ⟨b :: env, log, st⟩ =
      some ⟨(vars.reverse.map (fun x => (x, O.undef)) ++ b) :: env, log, st⟩
  | [], b => rfl
  | x :: vars, b => by
    rw [List.map_cons, chain, runP, runP]
    simp only [evalP, envAdd]
    rw [run_decls fuel log st env vars]
    simp

theorem run_comps (fuel : Nat) (P : PSt V) : (cs : List (Nat × Option Nat)) →
    runP O T fuel (chain (cs.map fun c => .comp c.1 c.2)) P = some P
  | [] => rfl
  | c :: cs => by
    rw [List.map_cons, chain, runP, runP]
    exact run_comps fuel P cs

theorem set_entry {C : List Nat} {f : Nat → V} {l : Nat} {v : V} (h : l ∈ C) (hn : C.Nodup) :
    blockSet (C.map fun x => (x, f x)) l v = some (C.map fun x => (x, if x = l then v else f x)) := by
  induction C with
  | nil => cases h
  | cons c C ih =>
    simp only [List.nodup_cons] at hn
    simp only [List.map_cons, blockSet]
    by_cases e : c = l
    · subst e
      rw [if_pos rfl]
      simp only [if_true]
      have : (C.map fun x => (x, if x = c then v else f x)) = C.map fun x => (x, f x) :=
        List.map_congr_left (fun x hx => by
          have : x ≠ c := fun e => hn.1 (e ▸ hx)
          simp only [if_neg this])
      rw [this]
    · rw [if_neg e, if_neg e]
      rcases List.mem_cons.mp h with h | h
      · exact absurd h.symm e
      · rw [ih h hn.2]; rfl

theorem run_zeros (fuel : Nat) (log : List (Ev V)) (st : Store V) (env : List (List (Nat × V)))
    (hn : C.Nodup) (hu : underscore ∉ C) : (w : List Nat) → (∀ l ∈ w, l ∈ C) → (f : Nat → V) →
    runP O T fuel (chain (w.map zero)) ⟨(C.map fun x => (x, f x)) :: env, log, st⟩ =
      some ⟨(C.map fun x => (x, if x ∈ w then O.num 0 else f x)) :: env, log, st⟩
  | [], _, f => by simp [chain, runP]
  | l :: w, hw, f => by
    rw [List.map_cons, chain, runP, zero, runP]
    have hl := hw l List.mem_cons_self
    have h0 : l ≠ underscore := fun e => hu (e ▸ hl)
    simp only [evalP, put, if_neg h0, envSet, set_entry hl hn, note, if_true, List.append_nil]
    rw [run_zeros fuel log st env hn hu w (fun x hx => hw x (List.mem_cons_of_mem _ hx))]
    congr 4
    funext x
    by_cases h1 : x ∈ w
    · simp [h1]
    · by_cases h2 : x = l <;> simp [h1, h2]

/-! ### Templates -/

/-- The components declared. -/
def declared : SStmt → List (Nat × Option Nat)
  | .comp c l => [(c, l)]
  | .cons a b => declared a ++ declared b
  | .ifThen _ t => declared t
  | .ifElse _ t e => declared t ++ declared e
  | .while _ _ b | .block b | .init b => declared b
  | _ => []

theorem split_declared {op : AOp} : (ls es : List SExpr) → (ss : List SStmt) → split op ls es = .ok ss →
    declared (chain ss) = []
  | ls, es, ss, h => by
    fun_induction split op ls es generalizing ss with
    | case1 => cases h
    | case2 x ls r rs rest he ih =>
      cases h
      simp only [chain, declared, ih rest he, List.append_nil]
      split <;> rfl
    | case3 => cases h; rfl
    | case4 => cases h

theorem removeT_declared (s : SStmt) : ∀ s', removeT s = .ok s' → declared s' = declared s := by
  fun_induction removeT s with
  | case1 => intro s' h; cases h
  | case2 => intro s' h; cases h
  | case3 a b a' ha b' hb ih1 ih2 => intro s' h; cases h; simp only [declared, ih1 _ ha, ih2 _ hb]
  | case4 => intro s' h; cases h
  | case5 x op e hne => intro s' h; cases h; split <;> rfl
  | case6 => intro s' h; cases h
  | case7 => intro s' h; cases h; rfl
  | case8 => intro s' h; cases h
  | case9 l op r _ _ ss hs => intro s' h; cases h; simp only [declared]; exact split_declared _ _ _ hs
  | case10 => intro s' h; cases h
  | case11 => intro s' h; cases h
  | case12 => intro s' h; cases h
  | case13 c t t' ht ih => intro s' h; cases h; simp only [declared, ih _ ht]
  | case14 => intro s' h; cases h
  | case15 => intro s' h; cases h
  | case16 c t e t' ht e' he ih1 ih2 => intro s' h; cases h; simp only [declared, ih1 _ ht, ih2 _ he]
  | case17 => intro s' h; cases h
  | case18 pos c b b' hb ih => intro s' h; cases h; simp only [declared, ih _ hb]
  | case19 => intro s' h; cases h
  | case20 b b' hb ih => intro s' h; cases h; simp only [declared, ih _ hb]
  | case21 => intro s' h; cases h
  | case22 b b' hb ih => intro s' h; cases h; simp only [declared, ih _ hb]
  | case23 => intro s' h; cases h
  | case24 => intro s' h; cases h; rfl

theorem declared_append (a b : List SStmt) : declared (chain (a ++ b)) = declared (chain a) ++ declared (chain b) := by
  induction a with
  | nil => rfl
  | cons x a ih => simp only [List.cons_append, chain, declared, ih, List.append_assoc]

theorem declared_comps : (cs : List (Nat × Option Nat)) →
    declared (chain (cs.map fun c => .comp c.1 c.2)) = cs
  | [] => rfl
  | c :: cs => by simp only [List.map_cons, chain, declared, declared_comps cs, List.cons_append, List.nil_append]

/-- The run of a template body before and after: the whole. -/
theorem desugar_run (law : ∀ n : Nat, O.idx (O.num n) = some n)
    (hT : ∀ t tm, T t = some tm → tm.inputs.Nodup) {b s : SStmt} (h : desugar N T b = .ok s)
    (hp : parOkS b = true) (hw : wfS b = true) (hsrc : srcS (loops N b) b = true) (hind : apartS T b = true)
    (hl : (loops N b).Nodup) (hn : (sitesS N b).Nodup) (hu : underscore ∉ loops N b) (fuel : Nat)
    {env : List (List (Nat × V))} (henv : ∀ l ∈ loops N b, envGet env l = none) {D' : DSt V}
    (hD : runD O T fuel b ⟨[] :: env, [], []⟩ = some D') :
    ∃ body P', s = .block body ∧ runP O T fuel body ⟨[] :: env, [], []⟩ = some P' ∧
      P'.env.tail = D'.env.tail ∧ P'.log = D'.log ∧ P'.store.map (·.2) = D'.insts ∧
      (P'.store.map (·.1)).Nodup ∧
      ∀ k ∈ P'.store.map (·.1), ((k.1, none) ∈ declared body ∧ k.2 = 0) ∨
        ∃ l n : Nat, (k.1, some l) ∈ declared body ∧ envGet P'.env l = some (O.num n) ∧ k.2 < n := by
  rw [desugar] at h
  cases hc : checkS b with
  | error x => rw [hc] at h; cases h
  | ok _ =>
    rw [hc] at h
    simp only at h
    cases hr : removeS N T none b with
    | error x => rw [hr] at h; cases h
    | ok u =>
      rw [hr] at h
      simp only at h
      cases ht : checkTS (withInits u) with
      | error x => rw [ht] at h; cases h
      | ok _ =>
        rw [ht] at h
        simp only at h
        rw [withInits, removeT] at h
        cases hX : removeT (chain ([.init (chain (u.vars.map fun x => .decl x .nil)),
            .init (chain (u.comps.map fun c => .comp c.1 c.2))] ++ u.subs ++ [u.stmt])) with
        | error x => rw [hX] at h; cases h
        | ok body =>
          rw [hX] at h
          cases h
          have hsub := removeS_loops b none u hr
          have hvn : u.vars.Nodup := hl.sublist hsub
          have hvl : u.vars ⊆ loops N b := hsub.subset
          obtain ⟨w, hw1, hw2⟩ := removeS_subs b none u hr
          have hte : checkTS u.stmt = .ok () := by
            rw [withInits] at ht
            simp only [checkTS] at ht
            revert ht
            generalize [SStmt.init (chain (u.vars.map fun x => .decl x .nil)),
              .init (chain (u.comps.map fun c => .comp c.1 c.2))] ++ u.subs = ss
            intro ht
            induction ss with
            | nil => simp only [List.nil_append, chain, checkTS] at ht; exact (ok_seq ht).1
            | cons a ss ih =>
              simp only [List.cons_append, chain, checkTS] at ht
              exact ih (ok_seq ht).2
          have hCn : u.vars.reverse.Nodup := List.nodup_reverse.mpr hvn
          have hCl : u.vars.reverse ⊆ loops N b := fun x hx => hvl (List.mem_reverse.mp hx)
          have pre : Pre N T u.vars.reverse (loops N b) none b u := ⟨hr, hc, hp, hw, hsrc, hind, hte,
            List.Subset.refl _, (fun x hx => List.mem_reverse.mpr hx), hvn, (fun l hl => by cases hl),
            (fun _ l hl => by cases hl), (removeS_sites hT b none u hr).nodup_iff.mpr hn⟩
          have start : runP O T fuel (chain ([.init (chain (u.vars.map fun x => .decl x .nil)),
              .init (chain (u.comps.map fun c => .comp c.1 c.2))] ++ u.subs)) ⟨[] :: env, [], []⟩ =
              some ⟨cnt O u.vars.reverse (fun _ => 0) :: env, [], []⟩ := by
            rw [run_append]
            simp only [chain, runP]
            rw [run_decls]
            simp only
            rw [run_comps]
            simp only [List.append_nil]
            rw [hw1, run_zeros fuel _ _ _ hCn (fun hx => hu (hCl hx)) w
              (fun l hl => List.mem_reverse.mpr (hw2.mem_iff.mp hl))]
            congr 3
            refine List.map_congr_left (fun x hx => ?_)
            rw [if_pos (hw2.mem_iff.mpr (List.mem_reverse.mp hx))]
            rfl
          have rel0 : Rel O u.vars.reverse (loops N b) (fun _ => 0) 0 ⟨[] :: env, [], []⟩
              ⟨cnt O u.vars.reverse (fun _ => 0) :: env, [], []⟩ :=
            ⟨.here [] env, henv, rfl, rfl, List.nodup_nil⟩
          obtain ⟨K, P', new, r1, h1, h2, h3, h4, h5⟩ := run_rel law hT hCl hCn hu fuel b none u pre _ 0 _ _ D' rel0
            (fun c _ m hm => by cases hm) hD
          refine ⟨body, P', rfl, ?_, ?_, h1.log, h1.insts, h1.nodup, ?_⟩
          · refine removeT_run fuel _ _ hX _ _ ?_
            rw [run_append, start]
            simp only
            rw [run_one]
            exact r1
          · have := h1.sim
            revert this
            generalize D'.env = De
            generalize P'.env = Pe
            intro hs
            cases hs
            rfl
          · intro k hk
            rw [h4] at hk
            simp only [List.map_nil, List.nil_append] at hk
            have hdec : declared body = declared (chain ([.init (chain (u.vars.map fun x => .decl x .nil)),
              .init (chain (u.comps.map fun c => .comp c.1 c.2))] ++ u.subs ++ [u.stmt])) :=
              removeT_declared _ _ hX
            have hmem : ∀ c ∈ u.comps, c ∈ declared body := by
              intro c hc
              rw [hdec, declared_append, declared_append]
              refine List.mem_append_left _ (List.mem_append_left _ ?_)
              simp only [chain, declared, declared_comps]
              exact List.mem_append_right _ (List.mem_append_left _ hc)
            obtain ⟨c, c1, c2, c3⟩ := h5 k hk
            obtain ⟨cn, cl⟩ := c
            simp only at c2 c3
            subst c2
            rcases c3 with ⟨c4, c5⟩ | ⟨l, c4, c5, c6⟩
            · subst c4
              exact .inl ⟨hmem _ c1, c5⟩
            · subst c5
              refine .inr ⟨l, K l, hmem _ c1, ?_, c6⟩
              exact sim_cnt_get h1.sim (List.mem_reverse.mpr c4) (h1.hid l (hvl c4))

end Verif.Anon
