import Verif.AnonEnv

/-!
Statements: the program after the removal of anonymous components does what the program before it does.
-/

namespace Verif.Anon

open Verif.Exec (envGet envSet envAdd blockGet blockSet)

set_option linter.unusedSimpArgs false
set_option linter.unusedVariables false

variable {V : Type} {O : Ops V} {T : Nat → Option Templ} {N : Names} {L C : List Nat}

/-- Whether a statement declares variables in the current block. -/
def naked : SStmt → Bool
  | .decl _ _ => true
  | .cons a b => naked a || naked b
  | .ifThen _ t => naked t
  | .ifElse _ t e => naked t || naked e
  | .while _ _ b | .init b => naked b
  | _ => false

/-- A statement as the user writes it, without the names in `L`. The grammar allows declarations only in
blocks, so the body of a loop is not one (lang.lalrpop, `ParseStatement0` to `ParseStatement3`). -/
def srcS (L : List Nat) : SStmt → Bool
  | .nil => true
  | .cons a b => srcS L a && srcS L b
  | .decl x dims => decide (x ∉ L) && srcE L dims
  | .assign x _ e => decide (x ∉ L) && srcE L e
  | .mult l _ r => srcE L l && srcE L r
  | .emit as => srcE L as
  | .ifThen c t => srcE L c && srcS L t
  | .ifElse c t e => srcE L c && srcS L t && srcS L e
  | .while _ c b => srcE L c && srcS L b && !naked b
  | .block b | .init b => srcS L b
  | .comp _ _ | .create _ _ _ _ _ | .input _ _ _ _ | .under _ _ => false

/-- How many values an element of a tuple gives. -/
def width (T : Nat → Option Templ) : SExpr → Nat
  | .anon _ t _ _ _ _ | .par (.anon _ t _ _ _ _) =>
    match T t with
    | none => 0
    | some tm => tm.outputs.length
  | _ => 1

/-- No element of a tuple with an anonymous component reads a variable to which an element before it is
assigned; `before` are these variables, `xs` those not assigned yet. Gives both lists afterwards. -/
def apart (T : Nat → Option Templ) : SExpr → List Nat → List Nat → Option (List Nat × List Nat)
  | .nil, before, xs => some (before, xs)
  | .cons e r, before, xs =>
    match apart T e before xs with
    | none => none
    | some (before', xs') => apart T r before' xs'
  | .tuple es, before, xs => apart T es before xs
  | e, before, xs =>
    if hasAnon e && (varsP e).any (fun x => decide (x ≠ underscore ∧ x ∈ before)) then none
    else some (before ++ xs.take (width T e), xs.drop (width T e))

/-- The same for all assignments of tuples. -/
def apartS (T : Nat → Option Templ) : SStmt → Bool
  | .cons a b => apartS T a && apartS T b
  | .mult l _ r =>
    match targets l with
    | none => true
    | some xs => (apart T r [] xs).isSome
  | .ifThen _ t => apartS T t
  | .ifElse _ t e => apartS T t && apartS T e
  | .while _ _ b | .block b | .init b => apartS T b
  | _ => true

/-- The counter or 0. -/
def idxK (K : Nat → Nat) : Option Nat → Nat
  | none => 0
  | some l => K l

/-- The states of the two runs. -/
structure Rel (O : Ops V) (C L : List Nat) (K : Nat → Nat) (d : Nat) (D : DSt V) (P : PSt V) : Prop where
  sim : Sim (cnt O C K) d D.env P.env
  hid : ∀ l ∈ L, envGet D.env l = none
  log : P.log = D.log
  insts : P.store.map (·.2) = D.insts
  nodup : (P.store.map (·.1)).Nodup

/-- No instance yet at the keys that come next. -/
def Fresh (K : Nat → Nat) (P : PSt V) (comps : List (Nat × Option Nat)) : Prop :=
  ∀ c ∈ comps, ∀ m, (c.1, m) ∈ P.store.map (·.1) → ∃ l, c.2 = some l ∧ m < K l

/-- The keys of the new instances. -/
def Keys (comps : List (Nat × Option Nat)) (vars : List Nat) (acc : Option Nat) (K K' : Nat → Nat)
    (new : List (Nat × Nat)) : Prop :=
  ∀ k ∈ new, ∃ c ∈ comps, c.1 = k.1 ∧
    ((c.2 = acc ∧ k.2 = idxK K acc) ∨ ∃ l ∈ vars, c.2 = some l ∧ k.2 < K' l)

/-- What a statement does in the second run. -/
def Does (O : Ops V) (T : Nat → Option Templ) (C L : List Nat) (K : Nat → Nat) (d fuel : Nat)
    (acc : Option Nat) (s : SStmt) (comps : List (Nat × Option Nat)) (vars : List Nat) (D' : DSt V)
    (P : PSt V) : Prop :=
  ∃ K' P' new, runP O T fuel s P = some P' ∧ Rel O C L K' d D' P' ∧ (∀ l, K l ≤ K' l) ∧
    (∀ l, l ∉ vars → K' l = K l) ∧ P'.store.map (·.1) = P.store.map (·.1) ++ new ∧
    Keys comps vars acc K K' new

theorem rel_vis {K : Nat → Nat} {d : Nat} {D : DSt V} {P : PSt V} (h : Rel O C L K d D P) (hC : C ⊆ L) :
    Vis L D.env P.env := fun x hx => sim_get h.sim (by rw [cnt_names]; exact fun hc => hx (hC hc))

theorem rel_index (law : ∀ n : Nat, O.idx (O.num n) = some n) {K : Nat → Nat} {d : Nat} {D : DSt V}
    {P : PSt V} (h : Rel O C L K d D P) (hC : C ⊆ L) {acc : Option Nat} (ha : ∀ l, acc = some l → l ∈ C) :
    index O P.env acc = some (idxK K acc) := by
  cases acc with
  | none => rfl
  | some l =>
    have hl := ha l rfl
    simp only [index, sim_cnt_get h.sim hl (h.hid l (hC hl)), law, idxK]

theorem removeE_comps {acc : Option Nat} : (e : SExpr) → (rs : List Res) → removeE N T acc e = .ok rs →
    ∀ r ∈ rs, ∀ c ∈ r.comps, c.2 = acc := by
  have hexp : ∀ {pos t ps names rs par r}, expand N T acc pos t ps names rs par = .ok r →
      (∀ x ∈ rs, ∀ c ∈ x.comps, c.2 = acc) → ∀ c ∈ r.comps, c.2 = acc := by
    intro pos t ps names rs par r hx ih c hc
    rw [expand] at hx
    cases ht : T t with
    | none => rw [ht] at hx; cases hx
    | some tm =>
      rw [ht] at hx
      simp only at hx
      cases hb : bind tm names rs with
      | error e => rw [hb] at hx; cases hx
      | ok ins =>
        rw [hb] at hx
        simp only at hx
        injection hx with hx
        subst hx
        rcases List.mem_cons.mp hc with rfl | hc
        · rfl
        · obtain ⟨x, hx, hc⟩ := List.mem_flatMap.mp hc
          exact ih _ (bind_mem hb x hx) c hc
  intro e
  have key : ∀ e rs, removeE N T acc e = .ok rs → ∀ r ∈ rs, ∀ c ∈ r.comps, c.2 = acc := by
    intro e
    fun_induction removeE N T acc e with
    | case1 => intro rs h r hr; cases h; cases hr
    | case2 => intro rs h; cases h
    | case3 => intro rs h; cases h
    | case4 e r re he rr hr ih1 ih2 =>
      intro rs h x hx
      cases h
      rcases List.mem_append.mp hx with hx | hx
      · exact ih1 _ he x hx
      · exact ih2 _ hr x hx
    | case5 => intro rs h; cases h
    | case6 es re he ih =>
      intro rs h x hx c hc
      cases h
      simp only [List.mem_singleton] at hx
      subst hx
      obtain ⟨r, hr, hc⟩ := List.mem_flatMap.mp hc
      exact ih _ he r hr c hc
    | case7 => intro rs h; cases h
    | case8 es re he ih =>
      intro rs h x hx c hc
      cases h
      simp only [List.mem_singleton] at hx
      subst hx
      obtain ⟨r, hr, hc⟩ := List.mem_flatMap.mp hc
      exact ih _ he r hr c hc
    | case9 => intro rs h; cases h
    | case10 => intro rs h; cases h
    | case11 pos t ps names ss par re he r hx ih =>
      intro rs h x hm
      cases h
      simp only [List.mem_singleton] at hm
      subst hm
      exact hexp hx (ih _ he)
    | case12 => intro rs h; cases h
    | case13 => intro rs h; cases h
    | case14 pos t ps names ss par re he r hx ih =>
      intro rs h x hm
      cases h
      simp only [List.mem_singleton] at hm
      subst hm
      exact hexp hx (ih _ he)
    | case15 =>
      intro rs h x hm c hc
      cases h
      simp only [List.mem_singleton] at hm
      subst hm
      cases hc
  exact key e

/-- The conditions of statements. -/
theorem cond_rel {K : Nat → Nat} {d : Nat} {D D' : DSt V} {P : PSt V} {c : SExpr} {b : Bool}
    (hr : Rel O C L K d D P) (hC : C ⊆ L) (ha : hasAnon c = false) (hs : srcE L c = true)
    (hw : wf false c = true) (h : condD O T c D = some (D', b)) : D' = D ∧ condP O T c P = some (P, b) := by
  rw [condD] at h
  cases he : evalD O T D.env c with
  | none => rw [he] at h; cases h
  | some ds =>
    obtain ⟨h1, h2⟩ := plain c ds ha hs he
    have hl := one_of_wf c ds hw he
    match ds, hl, he, h, h1, h2 with
    | [(vs, is)], _, he, h, h1, h2 =>
      rw [he] at h
      have his : is = [] := h1 _ List.mem_cons_self
      match vs, h, h2 with
      | [v], h, h2 =>
        simp only at h
        cases ht : O.truth v with
        | none => rw [ht] at h; cases h
        | some b' =>
          rw [ht] at h
          simp only [Option.some.injEq, Prod.mk.injEq] at h
          refine ⟨?_, ?_⟩
          · rw [← h.1, his, List.append_nil]
          · rw [condP, h2 P.env P.store (rel_vis hr hC)]
            simp only [List.flatMap_cons, List.flatMap_nil, List.append_nil, ht, h.2]
      | [], h, _ => cases h
      | _ :: _ :: _, h, _ => cases h

theorem pairs_ext {α β : Type} : {a b : List (α × β)} → a.map (·.1) = b.map (·.1) →
    a.map (·.2) = b.map (·.2) → a = b
  | [], [], _, _ => rfl
  | [], _ :: _, h, _ => by simp at h
  | _ :: _, [], h, _ => by simp at h
  | (x, y) :: a, (x', y') :: b, h1, h2 => by
    simp only [List.map_cons, List.cons.injEq] at h1 h2
    rw [h1.1, h2.1, pairs_ext h1.2 h2.2]

/-- The statements written for an expression, in an environment that may have a new block. -/
theorem expr_rel (law : ∀ n : Nat, O.idx (O.num n) = some n)
    (hT : ∀ t tm, T t = some tm → tm.inputs.Nodup) {K : Nat → Nat} {d : Nat} {D : DSt V} {P : PSt V}
    {acc : Option Nat} {e : SExpr} {r : Res} {ds : List (List V × List (Inst V))}
    (hr : Rel O C L K d D P) (hC : C ⊆ L)
    (h : removeE N T acc e = .ok [r]) (hp : proper e = true) (hw : wf false e = true) (hs : srcE L e = true)
    (hn : (r.comps.map (·.1)).Nodup) (hac : r.comps ≠ [] → ∀ l, acc = some l → l ∈ C)
    (hf : Fresh K P r.comps) (he : evalD O T D.env e = some ds) (fuel : Nat) :
    ∃ vs is new, ds = [(vs, is)] ∧
      runP O T fuel (chain r.stmts) P = some ⟨P.env, P.log, P.store ++ new⟩ ∧
      runP O T fuel (chain r.stmts) ⟨[] :: P.env, P.log, P.store⟩ =
        some ⟨[] :: P.env, P.log, P.store ++ new⟩ ∧
      evalP O T P.env (P.store ++ new) r.expr = some vs ∧
      (P.store ++ new).map (·.2) = D.insts ++ is ∧ ((P.store ++ new).map (·.1)).Nodup ∧
      Keys r.comps [] acc K K (new.map (·.1)) := by
  have hg := removeE_good (n := idxK K acc) hT e _ _ ds h hp hw hs he
  cases hg with
  | cons hg0 hgn =>
    cases hgn
    rename_i dd
    have hacc := removeE_comps e _ h r List.mem_cons_self
    have hfresh : ∀ c ∈ r.comps, (c.1, idxK K acc) ∉ P.store.map (·.1) := by
      intro c hc hm
      obtain ⟨l, hl, hlt⟩ := hf c hc _ hm
      rw [hacc c hc] at hl
      subst hl
      simp [idxK] at hlt
    have hidx : r.comps ≠ [] → index O P.env acc = some (idxK K acc) :=
      fun hc => rel_index law hr hC (hac hc)
    have hv := rel_vis hr hC
    obtain ⟨new, r1, k1, i1, e1⟩ := hg0 P.env hv hidx hn fuel P.log P.store hfresh
    obtain ⟨new', r2, k2, i2, e2⟩ := hg0 ([] :: P.env) (vis_push hv)
      (fun hc => index_push.trans (hidx hc)) hn fuel P.log P.store hfresh
    have hnn : new' = new := by
      have h1 : new'.map (·.1) = new.map (·.1) := by rw [k1, k2]
      have h2 : new'.map (·.2) = new.map (·.2) := by rw [i1, i2]
      exact pairs_ext h1 h2
    subst hnn
    have hnd : (new'.map (·.1)).Nodup := by rw [k1]; exact keys_nodup _ hn
    have hdis : ∀ p ∈ new', p.1 ∉ P.store.map (·.1) := by
      intro p hp
      have : p.1 ∈ new'.map (·.1) := List.mem_map_of_mem hp
      rw [k1] at this
      obtain ⟨c, hc, hce⟩ := List.mem_map.mp this
      rw [← hce]
      exact hfresh c hc
    refine ⟨dd.1, dd.2, new', rfl, r1, r2, e1 _ (look_new hdis hnd), ?_, ?_, ?_⟩
    · rw [List.map_append, hr.insts, i1]
    · rw [List.map_append, List.nodup_append]
      refine ⟨hr.nodup, hnd, ?_⟩
      intro a ha b hb hab
      subst hab
      obtain ⟨p, hp, rfl⟩ := List.mem_map.mp hb
      exact hdis p hp ha
    · intro k hk
      rw [k1] at hk
      obtain ⟨c, hc, rfl⟩ := List.mem_map.mp hk
      exact ⟨c, hc, rfl, .inl ⟨hacc c hc, rfl⟩⟩

theorem hid_put {D D' : List (List (Nat × V))} {x : Nat} {v : V} (hx : x ∉ L)
    (h : ∀ l ∈ L, envGet D l = none) (hp : put x v D = some D') : ∀ l ∈ L, envGet D' l = none := by
  intro l hl
  rw [put_other hp (fun e => hx (e ▸ hl))]
  exact h l hl

theorem put_push {D D' : List (List (Nat × V))} {x : Nat} {v : V} (h : put x v D = some D') :
    put x v ([] :: D) = some ([] :: D') := by
  rw [put] at h ⊢
  split at h
  · rename_i h0
    cases h
    rw [if_pos h0]
  · rename_i h0
    rw [if_neg h0, envSet]
    simp only [blockSet, h, Option.map_some]

theorem evalP_push {env : List (List (Nat × V))} {st : Store V} (e : SExpr) :
    evalP O T ([] :: env) st e = evalP O T env st e := evalP_congr e (fun x _ => rfl)

/-! ### Assignments of tuples -/

theorem one_val {env : List (List (Nat × V))} {st : Store V} : (e : SExpr) → (vs : List V) →
    hasTuple e = false → wf false e = true → evalP O T env st e = some vs → ∃ v, vs = [v]
  | .nil, vs, _, hw, _ => by simp [wf] at hw
  | .cons _ _, vs, _, hw, _ => by simp [wf] at hw
  | .num v, vs, _, _, h => by rw [evalP] at h; cases h; exact ⟨_, rfl⟩
  | .var x, vs, _, _, h => by
    rw [evalP] at h
    split at h
    · cases h
    · cases h; exact ⟨_, rfl⟩
  | .out c l o, vs, _, _, h => by
    rw [evalP] at h
    split at h
    · cases h
    · split at h
      · cases h
      · split at h
        · cases h
        · cases h; exact ⟨_, rfl⟩
  | .succ l, vs, _, _, h => by
    rw [evalP] at h
    split at h
    · cases h
    · cases h; exact ⟨_, rfl⟩
  | .op _ _ _, vs, _, _, h => by
    rw [evalP] at h
    split at h
    · cases h
    · split at h
      · cases h
      · cases h; exact ⟨_, rfl⟩
  | .array _, vs, _, _, h => by
    rw [evalP] at h
    split at h
    · cases h
    · cases h; exact ⟨_, rfl⟩
  | .tuple _, vs, ht, _, _ => by simp [hasTuple] at ht
  | .anon _ _ _ _ _ _, vs, _, _, h => by rw [evalP] at h; cases h
  | .par e, vs, ht, hw, h => by
    rw [evalP] at h
    rw [hasTuple] at ht
    exact one_val e vs ht (by simpa [wf] using hw) h

theorem evalP_args_append {env : List (List (Nat × V))} {st : Store V} (a b : List SExpr) :
    evalP O T env st (args (a ++ b)) =
      match evalP O T env st (args a) with
      | none => none
      | some x => match evalP O T env st (args b) with
        | none => none
        | some y => some (x ++ y) := by
  induction a with
  | nil => simp only [List.nil_append, args, evalP]; cases evalP O T env st (args b) <;> rfl
  | cons e a ih =>
    simp only [List.cons_append, args, evalP, ih]
    cases evalP O T env st e with
    | none => rfl
    | some x =>
      simp only
      cases evalP O T env st (args a) with
      | none => rfl
      | some y =>
        simp only
        cases evalP O T env st (args b) with
        | none => rfl
        | some z => simp

theorem evalP_flat {env : List (List (Nat × V))} {st : Store V} : (e : SExpr) →
    evalP O T env st (args (flat e)) = evalP O T env st e
  | .nil => rfl
  | .cons e r => by
    rw [flat, evalP_args_append, evalP_flat e, evalP_flat r, evalP]
    cases evalP O T env st e with
    | none => rfl
    | some a => simp only; cases evalP O T env st r <;> rfl
  | .tuple es => by rw [flat, evalP_flat es, evalP]
  | .num _ | .var _ | .out _ _ _ | .succ _ | .op _ _ _ | .array _ | .anon _ _ _ _ _ _ | .par _ =>
    evalP_one

theorem flat_wf : (e : SExpr) → (c : Bool) → wf c e = true → ∀ x ∈ flat e, wf false x = true
  | .nil, _, _ => by intro x hx; cases hx
  | .cons e r, c, hw => by
    cases c with
    | false => simp [wf] at hw
    | true =>
      simp only [wf, Bool.and_eq_true] at hw
      intro x hx
      rcases List.mem_append.mp hx with hx | hx
      · exact flat_wf e _ hw.1 x hx
      · exact flat_wf r _ hw.2 x hx
  | .tuple es, c, hw => by
    cases c with
    | true => simp [wf] at hw
    | false => simp only [wf] at hw; exact flat_wf es _ hw
  | .num _, c, hw | .var _, c, hw | .out _ _ _, c, hw | .succ _, c, hw | .op _ _ _, c, hw
  | .array _, c, hw | .anon _ _ _ _ _ _, c, hw | .par _, c, hw => by
    cases c with
    | true => simp [wf] at hw
    | false =>
      intro x hx
      simp only [flat, List.mem_singleton] at hx
      subst hx
      exact hw

/-- Elementwise assignment does the same as simultaneous assignment if later elements do not read what
earlier ones assign. -/
theorem puts {ex : List (Nat × V)} {d : Nat} {op : AOp} {acc : Option Nat} {E : List (List (Nat × V))}
    {st : Store V} (hacc : ∀ l, acc = some l → l ∈ L) (hex : ex.map (·.1) ⊆ L) :
    (xs : List Nat) → (es : List SExpr) → (sl : List (List Nat)) → (vs : List V) →
    (D D' : List (List (Nat × V))) → (P : List (List (Nat × V))) → (log log' : List (Ev V)) →
    List.Forall₂ (Reads acc) es sl → (∀ e ∈ es, hasTuple e = false ∧ wf false e = true) →
    indep xs sl = true → (∀ x ∈ xs, x ∉ L) → evalP O T E st (args es) = some vs →
    (∀ e ∈ es, ∀ y ∈ varsP e, envGet P y = envGet E y) → Sim ex d D P → (∀ l ∈ L, envGet D l = none) →
    putAll op xs vs D log = some (D', log') →
    ∃ P', putEach O T op xs es ⟨P, log, st⟩ = some ⟨P', log', st⟩ ∧ Sim ex d D' P' ∧
      (∀ l ∈ L, envGet D' l = none)
  | [], es, sl, vs, D, D', P, log, log', hrd, hone, hin, hxs, hev, hag, hsim, hhid, hput => by
    match vs, hput, hev with
    | [], hput, hev =>
      rw [putAll] at hput
      cases hput
      match es, hone, hev with
      | [], _, _ => exact ⟨P, rfl, hsim, hhid⟩
      | e :: es, hone, hev =>
        rw [args, evalP] at hev
        cases h1 : evalP O T E st e with
        | none => rw [h1] at hev; cases hev
        | some a =>
          obtain ⟨v, rfl⟩ := one_val e a (hone e List.mem_cons_self).1 (hone e List.mem_cons_self).2 h1
          rw [h1] at hev
          simp only at hev
          cases h2 : evalP O T E st (args es) with
          | none => rw [h2] at hev; cases hev
          | some b => rw [h2] at hev; simp at hev
    | _ :: _, hput, _ => simp [putAll] at hput
  | x :: xs, es, sl, vs, D, D', P, log, log', hrd, hone, hin, hxs, hev, hag, hsim, hhid, hput => by
    match vs, hput, hev with
    | [], hput, _ => simp [putAll] at hput
    | v :: vs, hput, hev =>
      rw [putAll] at hput
      cases hp : put x v D with
      | none => rw [hp] at hput; cases hput
      | some D1 =>
        rw [hp] at hput
        simp only at hput
        cases hrd with
        | nil => rw [args, evalP] at hev; cases hev
        | @cons e s es sl hr0 hrd =>
          rw [args, evalP] at hev
          cases h1 : evalP O T E st e with
          | none => rw [h1] at hev; cases hev
          | some a =>
            obtain ⟨w, rfl⟩ := one_val e a (hone e List.mem_cons_self).1 (hone e List.mem_cons_self).2 h1
            rw [h1] at hev
            simp only at hev
            cases h2 : evalP O T E st (args es) with
            | none => rw [h2] at hev; cases hev
            | some b =>
              rw [h2] at hev
              simp only [List.cons_append, List.nil_append, Option.some.injEq, List.cons.injEq] at hev
              obtain ⟨rfl, rfl⟩ := hev
              have hxL := hxs x List.mem_cons_self
              obtain ⟨P1, hp1, hs1⟩ := sim_put hsim (fun hc => hxL (hex hc)) hp
              simp only [indep, Bool.and_eq_true, List.all_eq_true, decide_eq_true_eq] at hin
              have hag' : ∀ e ∈ es, ∀ y ∈ varsP e, envGet P1 y = envGet E y := by
                intro e' he' y hy
                rw [← hag e' (List.mem_cons_of_mem _ he') y hy]
                by_cases h0 : x = underscore
                · rw [put, if_pos h0] at hp1
                  cases hp1
                  rfl
                · refine put_other hp1 ?_
                  intro hyx
                  subst hyx
                  obtain ⟨i, hi, rfl⟩ := List.mem_iff_getElem.mp he'
                  have hlen := hrd.length_eq
                  have := List.Forall₂.get hrd hi (hlen ▸ hi)
                  rcases this y (by simpa using hy) with h | h
                  · have := hin.1 _ (List.getElem_mem (hlen ▸ hi))
                    rcases this with h' | h'
                    · exact h0 h'
                    · exact h' (by simpa using h)
                  · exact hxL (hacc y h)
              obtain ⟨P', hrun, hsim', hhid'⟩ := puts hacc hex xs es sl b D1 D' P1 (log ++ note x op w) log' hrd
                (fun e he => hone e (List.mem_cons_of_mem _ he)) hin.2
                (fun y hy => hxs y (List.mem_cons_of_mem _ hy)) h2 hag' hs1 (hid_put hxL hhid hp) hput
              refine ⟨P', ?_, hsim', hhid'⟩
              rw [putEach]
              simp only
              rw [evalP_congr e (fun y hy => hag e List.mem_cons_self y hy), h1]
              simp only
              rw [hp1]
              exact hrun

theorem targets_src {l : SExpr} : ∀ xs, targets l = some xs → srcE L l = true → ∀ x ∈ xs, x ∉ L := by
  fun_induction targets l with
  | case1 => intro xs h _ x hx; cases h; cases hx
  | case2 => intro xs h; cases h
  | case3 => intro xs h; cases h
  | case4 e r a ha b hb ih1 ih2 =>
    intro xs h hs x hx
    cases h
    simp only [srcE, Bool.and_eq_true] at hs
    rcases List.mem_append.mp hx with hx | hx
    · exact ih1 a ha hs.1 x hx
    · exact ih2 b hb hs.2 x hx
  | case5 y =>
    intro xs h hs x hx
    cases h
    simp only [List.mem_singleton] at hx
    subst hx
    simpa [srcE] using hs
  | case6 es ih => intro xs h hs; exact ih xs h hs
  | case7 => intro xs h; cases h

theorem putEach_push {op : AOp} : (xs : List Nat) → (es : List SExpr) → (st st' : PSt V) →
    putEach O T op xs es st = some st' →
    putEach O T op xs es ⟨[] :: st.env, st.log, st.store⟩ = some ⟨[] :: st'.env, st'.log, st'.store⟩
  | [], [], st, st', h => by rw [putEach] at h ⊢; cases h; rfl
  | [], _ :: _, st, st', h => by simp [putEach] at h
  | _ :: _, [], st, st', h => by simp [putEach] at h
  | x :: xs, e :: es, st, st', h => by
    rw [putEach] at h ⊢
    simp only [evalP_push]
    cases he : evalP O T st.env st.store e with
    | none => rw [he] at h; cases h
    | some vs =>
      rw [he] at h
      match vs, h with
      | [v], h =>
        simp only at h ⊢
        cases hp : put x v st.env with
        | none => rw [hp] at h; cases h
        | some env =>
          rw [hp] at h
          simp only at h
          rw [put_push hp]
          simp only
          exact putEach_push xs es _ st' h
      | [], h => cases h
      | _ :: _ :: _, h => cases h

end Verif.Anon
