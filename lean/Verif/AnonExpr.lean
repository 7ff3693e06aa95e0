import Verif.AnonBind

/-!
The statements written for an expression with anonymous components make the instances the expression asks
for, and the remaining expression has the same values.
-/

namespace Verif.Anon

open Verif.Exec (envGet envSet envAdd blockGet)

set_option linter.unusedSimpArgs false
set_option linter.unusedVariables false

/-- An expression as the user writes it, without the names in `L`. -/
def srcE (L : List Nat) : SExpr → Bool
  | .nil | .num _ => true
  | .out _ _ _ | .succ _ => false
  | .var x => decide (x ∉ L)
  | .cons e r => srcE L e && srcE L r
  | .op _ _ as => srcE L as
  | .array es | .tuple es => srcE L es
  | .anon _ _ ps _ ss _ => srcE L ps && srcE L ss
  | .par e => srcE L e

variable {V : Type} {O : Ops V} {T : Nat → Option Templ} {N : Names} {L : List Nat}

/-- The variables of the user have the same values. -/
def Vis (L : List Nat) (De Pe : List (List (Nat × V))) : Prop := ∀ x, x ∉ L → envGet Pe x = envGet De x

theorem evalD_par {env : List (List (Nat × V))} {e : SExpr} (h : hasAnon e = false) :
    evalD O T env (.par e) = evalD O T env e := by
  cases e <;> first | rfl | simp [hasAnon] at h

theorem plain {De : List (List (Nat × V))} : (e : SExpr) → (ds : List (List V × List (Inst V))) →
    hasAnon e = false → srcE L e = true → evalD O T De e = some ds →
    (∀ d ∈ ds, d.2 = []) ∧ ∀ Pe st, Vis L De Pe → evalP O T Pe st e = some (ds.flatMap (·.1))
  | .nil, ds, _, _, h => by
    rw [evalD] at h; cases h
    exact ⟨(fun d hd => by cases hd), fun Pe st _ => rfl⟩
  | .cons e r, ds, ha, hs, h => by
    rw [evalD] at h
    simp only [hasAnon, Bool.or_eq_false_iff] at ha
    simp only [srcE, Bool.and_eq_true] at hs
    cases h1 : evalD O T De e with
    | none => rw [h1] at h; cases h
    | some a =>
      rw [h1] at h
      simp only at h
      cases h2 : evalD O T De r with
      | none => rw [h2] at h; cases h
      | some b =>
        rw [h2] at h
        injection h with h
        subst h
        obtain ⟨a1, a2⟩ := plain e a ha.1 hs.1 h1
        obtain ⟨b1, b2⟩ := plain r b ha.2 hs.2 h2
        refine ⟨fun d hd => ?_, fun Pe st hv => ?_⟩
        · rcases List.mem_append.mp hd with hd | hd
          · exact a1 d hd
          · exact b1 d hd
        · rw [evalP, a2 Pe st hv]
          simp only
          rw [b2 Pe st hv]
          simp
  | .num v, ds, ha, hs, h => by
    rw [evalD] at h; cases h
    exact ⟨fun d hd => by simp only [List.mem_singleton] at hd; rw [hd], fun Pe st _ => rfl⟩
  | .var x, ds, ha, hs, h => by
    rw [evalD] at h
    simp only [srcE, decide_eq_true_eq] at hs
    cases h1 : envGet De x with
    | none => rw [h1] at h; cases h
    | some v =>
      rw [h1] at h; cases h
      refine ⟨fun d hd => by simp only [List.mem_singleton] at hd; rw [hd], fun Pe st hv => ?_⟩
      rw [evalP, hv x hs, h1]
      rfl
  | .out _ _ _, ds, ha, hs, h => by rw [evalD] at h; cases h
  | .succ _, ds, ha, hs, h => by rw [evalD] at h; cases h
  | .op _ k as, ds, ha, hs, h => by
    rw [evalD] at h
    rw [hasAnon] at ha
    rw [srcE] at hs
    cases h1 : evalD O T De as with
    | none => rw [h1] at h; cases h
    | some rs =>
      rw [h1] at h
      simp only at h
      obtain ⟨a1, a2⟩ := plain as rs ha hs h1
      cases h2 : O.op k (rs.flatMap (·.1)) with
      | none => rw [h2] at h; cases h
      | some v =>
        rw [h2] at h; cases h
        refine ⟨fun d hd => ?_, fun Pe st hv => ?_⟩
        · simp only [List.mem_singleton] at hd
          rw [hd]
          simpa [List.flatMap_eq_nil_iff] using a1
        · rw [evalP, a2 Pe st hv]
          simp only
          rw [h2]
          rfl
  | .array es, ds, ha, hs, h => by
    rw [evalD] at h
    rw [hasAnon] at ha
    rw [srcE] at hs
    cases h1 : evalD O T De es with
    | none => rw [h1] at h; cases h
    | some rs =>
      rw [h1] at h
      simp only at h
      obtain ⟨a1, a2⟩ := plain es rs ha hs h1
      cases h
      refine ⟨fun d hd => ?_, fun Pe st hv => ?_⟩
      · simp only [List.mem_singleton] at hd
        rw [hd]
        simpa [List.flatMap_eq_nil_iff] using a1
      · rw [evalP, a2 Pe st hv]
        rfl
  | .tuple es, ds, ha, hs, h => by
    rw [evalD] at h
    rw [hasAnon] at ha
    rw [srcE] at hs
    cases h1 : evalD O T De es with
    | none => rw [h1] at h; cases h
    | some rs =>
      rw [h1] at h
      simp only at h
      obtain ⟨a1, a2⟩ := plain es rs ha hs h1
      cases h
      refine ⟨fun d hd => ?_, fun Pe st hv => ?_⟩
      · simp only [List.mem_singleton] at hd
        rw [hd]
        simpa [List.flatMap_eq_nil_iff] using a1
      · rw [evalP, a2 Pe st hv]
        simp
  | .anon _ _ _ _ _ _, ds, ha, hs, h => by simp [hasAnon] at ha
  | .par e, ds, ha, hs, h => by
    rw [hasAnon] at ha
    rw [evalD_par ha] at h
    rw [srcE] at hs
    obtain ⟨a1, a2⟩ := plain e ds ha hs h
    exact ⟨a1, fun Pe st hv => by rw [evalP]; exact a2 Pe st hv⟩

/-! ### The table of instances -/

theorem look_append {k : Nat × Nat} {a b : Store V} (h : k ∉ a.map (·.1)) : look k (a ++ b) = look k b := by
  induction a with
  | nil => rfl
  | cons x a ih =>
    obtain ⟨k', i⟩ := x
    simp only [List.map_cons, List.mem_cons, not_or] at h
    rw [List.cons_append, look, if_neg (fun e => h.1 e.symm)]
    exact ih h.2

theorem look_mem {b : Store V} (hn : (b.map (·.1)).Nodup) : ∀ p ∈ b, look p.1 b = some p.2 := by
  induction b with
  | nil => intro p hp; cases hp
  | cons x b ih =>
    obtain ⟨k, i⟩ := x
    simp only [List.map_cons, List.nodup_cons] at hn
    intro p hp
    rcases List.mem_cons.mp hp with rfl | hp
    · simp [look]
    · rw [look, if_neg]
      · exact ih hn.2 p hp
      · intro e
        exact hn.1 (e ▸ List.mem_map_of_mem hp)

theorem look_new {a b : Store V} (hd : ∀ p ∈ b, p.1 ∉ a.map (·.1)) (hn : (b.map (·.1)).Nodup) :
    ∀ p ∈ b, look p.1 (a ++ b) = some p.2 := by
  intro p hp
  rw [look_append (hd p hp)]
  exact look_mem hn p hp

theorem feed_at {k : Nat × Nat} {i : Nat} {v : V} {a b : Store V} {m : Inst V}
    (h : k ∉ a.map (·.1)) (hi : i ∉ m.ins.map (·.1)) :
    feed k i v (a ++ (k, m) :: b) = some (a ++ (k, { m with ins := m.ins ++ [(i, v)] }) :: b) := by
  induction a with
  | nil => simp only [List.nil_append, feed, if_true, if_neg hi]
  | cons x a ih =>
    obtain ⟨k', j⟩ := x
    simp only [List.map_cons, List.mem_cons, not_or] at h
    rw [List.cons_append, feed, if_neg (fun e => h.1 e.symm), ih h.2]
    rfl

theorem run_append (fuel : Nat) (a b : List SStmt) (st : PSt V) :
    runP O T fuel (chain (a ++ b)) st =
      match runP O T fuel (chain a) st with
      | none => none
      | some st' => runP O T fuel (chain b) st' := by
  induction a generalizing st with
  | nil => rfl
  | cons x a ih =>
    simp only [List.cons_append, chain, runP]
    cases h : runP O T fuel x st with
    | none => rfl
    | some st' => exact ih st'

theorem run_one (fuel : Nat) (s : SStmt) (st : PSt V) :
    runP O T fuel (chain [s]) st = runP O T fuel s st := by
  simp only [chain, runP]
  cases h : runP O T fuel s st <;> rfl

theorem evalP_one {env : List (List (Nat × V))} {st : Store V} {e : SExpr} :
    evalP O T env st (args [e]) = evalP O T env st e := by
  simp only [args, evalP]
  cases evalP O T env st e <;> simp

/-! ### Expressions -/

/-- The statements of `r` make the instances of `d`, under the names of `r` and the index `n`; then the
expression of `r` has the values of `d`. -/
def Good (O : Ops V) (T : Nat → Option Templ) (L : List Nat) (De : List (List (Nat × V)))
    (acc : Option Nat) (n : Nat) (r : Res) (d : List V × List (Inst V)) : Prop :=
  ∀ Pe, Vis L De Pe → (r.comps ≠ [] → index O Pe acc = some n) → (r.comps.map (·.1)).Nodup →
    ∀ fuel log st, (∀ c ∈ r.comps, (c.1, n) ∉ st.map (·.1)) →
    ∃ new : Store V, runP O T fuel (chain r.stmts) ⟨Pe, log, st⟩ = some ⟨Pe, log, st ++ new⟩ ∧
      new.map (·.1) = r.comps.map (fun c => (c.1, n)) ∧ new.map (·.2) = d.2 ∧
      ∀ st', (∀ p ∈ new, look p.1 st' = some p.2) → evalP O T Pe st' r.expr = some d.1

theorem good_plain {De : List (List (Nat × V))} {acc : Option Nat} {n : Nat} {e : SExpr}
    {ds : List (List V × List (Inst V))} (ha : hasAnon e = false) (hs : srcE L e = true)
    (h : evalD O T De e = some ds) (hl : ds.length = 1) :
    List.Forall₂ (Good O T L De acc n) [⟨[], [], e⟩] ds := by
  obtain ⟨h1, h2⟩ := plain e ds ha hs h
  match ds, hl with
  | [d], _ =>
    refine .cons ?_ .nil
    intro Pe hv _ _ fuel log st _
    refine ⟨[], by simp [chain, runP], rfl, ?_, fun st' _ => ?_⟩
    · rw [h1 d List.mem_cons_self]; rfl
    · rw [h2 Pe st' hv]; simp

theorem keys_nodup {l : List (Nat × Option Nat)} (n : Nat) (h : (l.map (·.1)).Nodup) :
    (l.map fun c => (c.1, n)).Nodup := by
  have : (l.map fun c => (c.1, n)) = (l.map (·.1)).map (fun x => (x, n)) := by simp
  rw [this]
  exact h.map (fun a b e => by simpa using e)

theorem goods {De : List (List (Nat × V))} {acc : Option Nat} {n : Nat} {rs : List Res}
    {ds : List (List V × List (Inst V))} (h : List.Forall₂ (Good O T L De acc n) rs ds) :
    ∀ Pe, Vis L De Pe → (rs.flatMap (·.comps) ≠ [] → index O Pe acc = some n) →
    ((rs.flatMap (·.comps)).map (·.1)).Nodup →
    ∀ fuel log st, (∀ c ∈ rs.flatMap (·.comps), (c.1, n) ∉ st.map (·.1)) →
    ∃ new : Store V, runP O T fuel (chain (rs.flatMap (·.stmts))) ⟨Pe, log, st⟩ = some ⟨Pe, log, st ++ new⟩ ∧
      new.map (·.1) = (rs.flatMap (·.comps)).map (fun c => (c.1, n)) ∧ new.map (·.2) = ds.flatMap (·.2) ∧
      ∀ st', (∀ p ∈ new, look p.1 st' = some p.2) →
        evalP O T Pe st' (args (rs.map (·.expr))) = some (ds.flatMap (·.1)) := by
  induction h with
  | nil =>
    intro Pe hv _ _ fuel log st _
    exact ⟨[], by simp [chain, runP], rfl, rfl, fun st' _ => rfl⟩
  | @cons r d rs ds hg _ ih =>
    intro Pe hv hi hn fuel log st hf
    simp only [List.flatMap_cons, List.map_append] at hi hn hf ⊢
    have hn' := List.nodup_append.mp hn
    obtain ⟨new1, r1, k1, i1, e1⟩ := hg Pe hv (fun hc => hi (by simp [hc])) hn'.1 fuel log st
      (fun c hc => hf c (List.mem_append_left _ hc))
    obtain ⟨new2, r2, k2, i2, e2⟩ := ih Pe hv (fun hc => hi (by
      intro e; exact hc (List.append_eq_nil_iff.mp e).2)) hn'.2.1 fuel log (st ++ new1)
      (fun c hc => by
        rw [List.map_append, List.mem_append, not_or]
        refine ⟨hf c (List.mem_append_right _ hc), ?_⟩
        rw [k1]
        intro hm
        obtain ⟨c', hc', he⟩ := List.mem_map.mp hm
        have he1 : c'.1 = c.1 := (Prod.mk.inj he).1
        exact hn'.2.2 _ (List.mem_map_of_mem hc') _ (List.mem_map_of_mem hc) he1)
    refine ⟨new1 ++ new2, ?_, by simp [k1, k2], by simp [i1, i2], fun st' hl => ?_⟩
    · rw [run_append, r1]
      simp only
      rw [r2, List.append_assoc]
    · simp only [List.map_cons, args, evalP]
      rw [e1 st' (fun p hp => hl p (List.mem_append_left _ hp))]
      simp only
      rw [e2 st' (fun p hp => hl p (List.mem_append_right _ hp))]

/-- The inputs of one instance. -/
theorem feeds {De : List (List (Nat × V))} {acc : Option Nat} {n c : Nat} {Pe : List (List (Nat × V))}
    (hv : Vis L De Pe) (hi : index O Pe acc = some n) {ins : List (Nat × Res)}
    {insD : List (Nat × (List V × List (Inst V)))}
    (h : List.Forall₂ (fun x y => x.1 = y.1 ∧ Good O T L De acc n x.2 y.2) ins insD) :
    ∀ (vs : List (Nat × V)) (fuel : Nat) (log : List (Ev V)) (a more : Store V) (m : Inst V),
    insD.mapM single = some vs →
    ((ins.flatMap (·.2.comps)).map (·.1)).Nodup → c ∉ (ins.flatMap (·.2.comps)).map (·.1) →
    (c, n) ∉ a.map (·.1) →
    (∀ x ∈ ins.flatMap (·.2.comps), (x.1, n) ∉ a.map (·.1) ∧ (x.1, n) ∉ more.map (·.1)) →
    (m.ins.map (·.1) ++ ins.map (·.1)).Nodup →
    ∃ new : Store V,
      runP O T fuel (chain (ins.flatMap fun x => x.2.stmts ++ [.input c acc x.1 x.2.expr]))
        ⟨Pe, log, a ++ ((c, n), m) :: more⟩ =
      some ⟨Pe, log, a ++ ((c, n), { m with ins := m.ins ++ vs }) :: (more ++ new)⟩ ∧
      new.map (·.1) = (ins.flatMap (·.2.comps)).map (fun x => (x.1, n)) ∧
      new.map (·.2) = insD.flatMap (·.2.2) ∧ vs.map (·.1) = ins.map (·.1) := by
  induction h with
  | nil =>
    intro vs fuel log a more m hvs _ _ _ _ _
    simp only [List.mapM_nil] at hvs
    cases hvs
    exact ⟨[], by simp [chain, runP], rfl, rfl, rfl⟩
  | @cons x y ins insD hxy _ ih =>
    obtain ⟨i, r⟩ := x
    obtain ⟨i', vals, is⟩ := y
    obtain ⟨hname, hg⟩ := hxy
    simp only at hname hg
    subst hname
    intro vs fuel log a more m hvs hn hc hca hf hmn
    simp only [List.mapM_cons] at hvs
    match vals, hvs, hg with
    | [v], hvs, hg =>
      simp only [single, Option.bind_eq_bind, Option.bind_some] at hvs
      cases hr : insD.mapM single with
      | none => rw [hr] at hvs; simp at hvs
      | some vs' =>
        rw [hr] at hvs
        simp only [Option.bind_some, Option.pure_def, Option.some.injEq] at hvs
        subst hvs
        simp only [List.flatMap_cons, List.map_append, List.mem_append, not_or] at hn hc hf ⊢
        have hn' := List.nodup_append.mp hn
        have hk : ∀ b : Store V, ∀ x ∈ r.comps, (x.1, n) ∉ ((a ++ ((c, n), m) :: more).map (·.1)) := by
          intro _ x hx
          simp only [List.map_append, List.map_cons, List.mem_append, List.mem_cons, not_or]
          have := hf x (.inl hx)
          refine ⟨this.1, ?_, this.2⟩
          intro e
          exact hc.1 ((Prod.mk.inj e).1 ▸ List.mem_map_of_mem hx)
        obtain ⟨new1, r1, k1, i1, e1⟩ := hg Pe hv (fun _ => hi) hn'.1 fuel log
          (a ++ ((c, n), m) :: more) (hk [])
        have hnd1 : (new1.map (·.1)).Nodup := by rw [k1]; exact keys_nodup n hn'.1
        have hval : evalP O T Pe ((a ++ ((c, n), m) :: more) ++ new1) r.expr = some [v] := by
          refine e1 _ (look_new (fun p hp => ?_) hnd1)
          have : p.1 ∈ new1.map (·.1) := List.mem_map_of_mem hp
          rw [k1] at this
          obtain ⟨x, hx, he⟩ := List.mem_map.mp this
          rw [← he]
          exact hk [] x hx
        have him : i ∉ m.ins.map (·.1) := by
          have := List.nodup_append.mp hmn
          intro hm
          exact this.2.2 _ hm i (by simp) rfl
        obtain ⟨new2, r2, k2, i2, v2⟩ := ih vs' fuel log a (more ++ new1)
          { m with ins := m.ins ++ [(i, v)] } hr hn'.2.1 hc.2 hca
          (fun x hx => by
            have := hf x (.inr hx)
            refine ⟨this.1, ?_⟩
            rw [List.map_append, List.mem_append, not_or]
            refine ⟨this.2, ?_⟩
            rw [k1]
            intro hm
            obtain ⟨z, hz, he⟩ := List.mem_map.mp hm
            exact hn'.2.2 _ (List.mem_map_of_mem hz) _ (List.mem_map_of_mem hx) (Prod.mk.inj he).1)
          (by simpa using hmn)
        refine ⟨new1 ++ new2, ?_, by simp [k1, k2], by simp [i1, i2], by simp [v2]⟩
        rw [List.append_assoc, run_append, r1]
        simp only
        rw [run_append, run_one]
        have hin : runP O T fuel (.input c acc i r.expr) ⟨Pe, log, (a ++ ((c, n), m) :: more) ++ new1⟩ =
            some ⟨Pe, log, a ++ ((c, n), { m with ins := m.ins ++ [(i, v)] }) :: (more ++ new1)⟩ := by
          rw [runP]
          simp only [hi]
          rw [hval]
          simp only
          rw [List.append_assoc, List.cons_append, feed_at hca him]
        rw [hin]
        simp only
        rw [r2]
        simp
    | [], hvs, _ => simp [single] at hvs
    | _ :: _ :: _, hvs, _ => simp [single] at hvs

theorem outs_args (c n : Nat) (acc : Option Nat) (Pe : List (List (Nat × V))) (st : Store V) (m : Inst V)
    (hi : index O Pe acc = some n) (hl : look (c, n) st = some m) (tm : Templ) (ht : T m.t = some tm)
    (hc : ∀ i ∈ tm.inputs, i ∈ m.ins.map (·.1)) : (os : List Nat) → (vs : List V) →
    os.mapM (O.out m.t m.params m.ins) = some vs →
    evalP O T Pe st (args (os.map fun o => .out c acc o)) = some vs
  | [], vs, h => by simp only [List.mapM_nil] at h; cases h; rfl
  | o :: os, vs, h => by
    simp only [List.mapM_cons] at h
    cases h1 : O.out m.t m.params m.ins o with
    | none => rw [h1] at h; simp at h
    | some v =>
      rw [h1] at h
      simp only [Option.bind_eq_bind, Option.bind_some] at h
      cases h2 : os.mapM (O.out m.t m.params m.ins) with
      | none => rw [h2] at h; simp at h
      | some vs' =>
        rw [h2] at h
        simp only [Option.bind_some, Option.pure_def, Option.some.injEq] at h
        subst h
        have hr : readOut O T m o = some v := by
          rw [readOut, ht]
          simp only
          rw [if_pos, h1]
          simpa [List.all_eq_true] using hc
        simp only [List.map_cons, args, evalP, hi, hl, hr]
        rw [outs_args c n acc Pe st m hi hl tm ht hc os vs' h2]
        rfl

theorem index_push {Pe : List (List (Nat × V))} {acc : Option Nat} : index O ([] :: Pe) acc = index O Pe acc := by
  cases acc <;> rfl

theorem vis_push {De Pe : List (List (Nat × V))} (h : Vis L De Pe) : Vis L De ([] :: Pe) := h

theorem good_anon {De : List (List (Nat × V))} {acc : Option Nat} {n pos t : Nat} {ps : SExpr}
    {names : Option (List (AOp × Nat))} {rs : List Res} {par : Bool} {r : Res}
    {pr sr : List (List V × List (Inst V))} {d : List V × List (Inst V)}
    (hT : ∀ t tm, T t = some tm → tm.inputs.Nodup)
    (hx : expand N T acc pos t ps names rs par = .ok r) (hp : hasAnon ps = false) (hs : srcE L ps = true)
    (hpr : evalD O T De ps = some pr) (hg : List.Forall₂ (Good O T L De acc n) rs sr)
    (he : evalAnon O T t names par pr sr = some d) : Good O T L De acc n r d := by
  rw [expand] at hx
  rw [evalAnon] at he
  cases ht : T t with
  | none => rw [ht] at hx; cases hx
  | some tm =>
    rw [ht] at hx he
    simp only at hx he
    cases hb : bind tm names rs with
    | error e => rw [hb] at hx; cases hx
    | ok ins =>
      rw [hb] at hx
      simp only at hx
      injection hx with hx
      cases hid : inputsOf tm names sr with
      | none => rw [hid] at he; cases he
      | some insD =>
        rw [hid] at he
        simp only at he
        cases hvs : insD.mapM single with
        | none => rw [hvs] at he; cases he
        | some vs =>
          rw [hvs] at he
          simp only at he
          cases hos : tm.outputs.mapM (O.out t (pr.flatMap (·.1)) vs) with
          | none => rw [hos] at he; cases he
          | some os =>
            rw [hos] at he
            simp only [Option.some.injEq] at he
            obtain ⟨hb1, hb2, hb3⟩ := bind_spec (hT t tm ht) hb
            have hrel := inputsOf_rel hg hb1 hid
            obtain ⟨hp1, hp2⟩ := plain ps pr hp hs hpr
            have hpn : pr.flatMap (·.2) = [] := by simpa [List.flatMap_eq_nil_iff] using hp1
            rw [hpn, List.nil_append] at he
            subst hx
            subst he
            intro Pe hv hi hn fuel log st hf
            simp only at hi hn hf ⊢
            have hi' := hi (by simp)
            simp only [List.map_cons, List.nodup_cons] at hn
            have hnc : (N.comp t pos, n) ∉ st.map (·.1) := hf (N.comp t pos, acc) List.mem_cons_self
            have hkn : (ins.map (·.1)).Nodup := by
              rw [hb2]
              exact (List.perm_insertionSort _ _).nodup_iff.mpr (hT t tm ht)
            obtain ⟨new, r1, k1, i1, v1⟩ := feeds (c := N.comp t pos) (vis_push hv)
              (index_push.trans hi') hrel vs fuel log st [] ⟨t, pr.flatMap (·.1), par, []⟩ hvs hn.2 hn.1 hnc
              (fun x hx => ⟨hf x (List.mem_cons_of_mem _ hx), by simp⟩) (by simpa using hkn)
            simp only [List.nil_append] at r1
            have hcr : runP O T fuel (.create (N.comp t pos) acc t ps par) ⟨[] :: Pe, log, st⟩ =
                some ⟨[] :: Pe, log, st ++ [((N.comp t pos, n), ⟨t, pr.flatMap (·.1), par, []⟩)]⟩ := by
              rw [runP]
              simp only [index_push, hi', hp2 _ st (vis_push hv), if_neg hnc]
            refine ⟨((N.comp t pos, n), ⟨t, pr.flatMap (·.1), par, vs⟩) :: new, ?_, by simp [k1],
              by simp [i1], fun st' hl => ?_⟩
            · rw [run_one, runP, chain, runP]
              simp only [hcr]
              rw [r1]
              rfl
            · have hl0 := hl _ List.mem_cons_self
              simp only at hl0
              have hcm : ∀ i ∈ tm.inputs, i ∈ vs.map (·.1) := by
                intro i hi
                rw [v1, hb2]
                exact (List.perm_insertionSort _ _).mem_iff.mpr hi
              have hkey := outs_args (O := O) (T := T) (N.comp t pos) n acc Pe st'
                ⟨t, pr.flatMap (·.1), par, vs⟩ hi' hl0 tm ht hcm tm.outputs os hos
              split
              · rename_i o ho
                rw [ho] at hkey
                rw [List.map_cons, List.map_nil, evalP_one] at hkey
                exact hkey
              · simpa only [evalP] using hkey

theorem one_of_wf {De : List (List (Nat × V))} : (e : SExpr) → (ds : List (List V × List (Inst V))) →
    wf false e = true → evalD O T De e = some ds → ds.length = 1
  | .nil, ds, hw, _ => by simp [wf] at hw
  | .cons _ _, ds, hw, _ => by simp [wf] at hw
  | .num _, ds, _, h => by rw [evalD] at h; cases h; rfl
  | .var x, ds, _, h => by
    rw [evalD] at h
    split at h
    · cases h
    · cases h; rfl
  | .out _ _ _, ds, _, h => by rw [evalD] at h; cases h
  | .succ _, ds, _, h => by rw [evalD] at h; cases h
  | .op _ _ _, ds, _, h => by
    rw [evalD] at h
    split at h
    · cases h
    · split at h
      · cases h
      · cases h; rfl
  | .array _, ds, _, h => by
    rw [evalD] at h
    split at h
    · cases h
    · cases h; rfl
  | .tuple _, ds, _, h => by
    rw [evalD] at h
    split at h
    · cases h
    · cases h; rfl
  | .anon _ _ _ _ _ _, ds, _, h => by
    rw [evalD] at h
    split at h
    · cases h
    · split at h
      · cases h
      · split at h
        · cases h
        · cases h; rfl
  | .par (.anon _ _ _ _ _ _), ds, _, h => by
    rw [evalD] at h
    split at h
    · cases h
    · split at h
      · cases h
      · split at h
        · cases h
        · cases h; rfl
  | .par .nil, ds, hw, h => by simp [wf] at hw
  | .par (.cons _ _), ds, hw, h => by simp [wf] at hw
  | .par (.num v), ds, hw, h => one_of_wf (De := De) (.num v) ds hw h
  | .par (.var v), ds, hw, h => one_of_wf (De := De) (.var v) ds hw h
  | .par (.out a b c), ds, hw, h => one_of_wf (De := De) (.out a b c) ds hw h
  | .par (.succ a), ds, hw, h => one_of_wf (De := De) (.succ a) ds hw h
  | .par (.op a b c), ds, hw, h => one_of_wf (De := De) (.op a b c) ds (by simpa [wf] using hw) h
  | .par (.array a), ds, hw, h => one_of_wf (De := De) (.array a) ds (by simpa [wf] using hw) h
  | .par (.tuple a), ds, hw, h => one_of_wf (De := De) (.tuple a) ds (by simpa [wf] using hw) h
  | .par (.par a), ds, hw, h => one_of_wf (De := De) (.par a) ds (by simpa [wf] using hw) h

theorem removeE_par {N : Names} {acc : Option Nat} {e : SExpr} (h : hasAnon e = false) :
    removeE N T acc (.par e) = .ok [⟨[], [], .par e⟩] := by
  cases e <;> first | rfl | simp [hasAnon] at h

theorem removeE_good {De : List (List (Nat × V))} {acc : Option Nat} {n : Nat}
    (hT : ∀ t tm, T t = some tm → tm.inputs.Nodup) :
    (e : SExpr) → (c : Bool) → (rs : List Res) → (ds : List (List V × List (Inst V))) →
      removeE N T acc e = .ok rs → proper e = true → wf c e = true → srcE L e = true →
      evalD O T De e = some ds → List.Forall₂ (Good O T L De acc n) rs ds
  | .nil, c, rs, ds, h, _, _, _, hd => by
    rw [removeE] at h; injection h with h; subst h
    rw [evalD] at hd; cases hd
    exact .nil
  | .cons e r, c, rs, ds, h, hp, hw, hs, hd => by
    rw [removeE] at h
    rw [evalD] at hd
    simp only [proper, Bool.and_eq_true] at hp
    simp only [srcE, Bool.and_eq_true] at hs
    cases c with
    | false => simp [wf] at hw
    | true =>
      simp only [wf, Bool.and_eq_true] at hw
      cases he : removeE N T acc e with
      | error x => rw [he] at h; cases h
      | ok re =>
        rw [he] at h
        simp only at h
        cases hr : removeE N T acc r with
        | error x => rw [hr] at h; cases h
        | ok rr =>
          rw [hr] at h
          injection h with h
          subst h
          cases h1 : evalD O T De e with
          | none => rw [h1] at hd; cases hd
          | some a =>
            rw [h1] at hd
            simp only at hd
            cases h2 : evalD O T De r with
            | none => rw [h2] at hd; cases hd
            | some b =>
              rw [h2] at hd
              injection hd with hd
              subst hd
              exact List.rel_append (removeE_good hT e _ re a he hp.1 hw.1 hs.1 h1)
                (removeE_good hT r _ rr b hr hp.2 hw.2 hs.2 h2)
  | .array es, c, rs, ds, h, hp, hw, hs, hd => by
    rw [removeE] at h
    rw [evalD] at hd
    rw [proper] at hp
    rw [srcE] at hs
    cases c with
    | true => simp [wf] at hw
    | false =>
      simp only [wf] at hw
      cases he : removeE N T acc es with
      | error x => rw [he] at h; cases h
      | ok re =>
        rw [he] at h
        injection h with h
        subst h
        cases h1 : evalD O T De es with
        | none => rw [h1] at hd; cases hd
        | some a =>
          rw [h1] at hd
          cases hd
          have ih := goods (n := n) (removeE_good hT es _ re a he hp hw hs h1)
          refine .cons ?_ .nil
          intro Pe hv hi hn fuel log st hf
          obtain ⟨new, r1, k1, i1, e1⟩ := ih Pe hv hi hn fuel log st hf
          refine ⟨new, r1, k1, i1, fun st' hl => ?_⟩
          rw [evalP, e1 st' hl]
  | .tuple es, c, rs, ds, h, hp, hw, hs, hd => by
    rw [removeE] at h
    rw [evalD] at hd
    rw [proper] at hp
    rw [srcE] at hs
    cases c with
    | true => simp [wf] at hw
    | false =>
      simp only [wf] at hw
      cases he : removeE N T acc es with
      | error x => rw [he] at h; cases h
      | ok re =>
        rw [he] at h
        injection h with h
        subst h
        cases h1 : evalD O T De es with
        | none => rw [h1] at hd; cases hd
        | some a =>
          rw [h1] at hd
          cases hd
          have ih := goods (n := n) (removeE_good hT es _ re a he hp hw hs h1)
          refine .cons ?_ .nil
          intro Pe hv hi hn fuel log st hf
          obtain ⟨new, r1, k1, i1, e1⟩ := ih Pe hv hi hn fuel log st hf
          refine ⟨new, r1, k1, i1, fun st' hl => ?_⟩
          rw [evalP, e1 st' hl]
  | .anon pos t ps names ss par, c, rs, ds, h, hp, hw, hs, hd => by
    rw [removeE] at h
    rw [evalD] at hd
    simp only [proper, Bool.and_eq_true, Bool.not_eq_true'] at hp
    simp only [srcE, Bool.and_eq_true] at hs
    cases c with
    | true => simp [wf] at hw
    | false =>
      simp only [wf, Bool.and_eq_true] at hw
      cases he : removeE N T acc ss with
      | error x => rw [he] at h; cases h
      | ok re =>
        rw [he] at h
        simp only at h
        cases hx : expand N T acc pos t ps names re par with
        | error x => rw [hx] at h; cases h
        | ok r =>
          rw [hx] at h
          injection h with h
          subst h
          cases h1 : evalD O T De ps with
          | none => rw [h1] at hd; cases hd
          | some pr =>
            rw [h1] at hd
            simp only at hd
            cases h2 : evalD O T De ss with
            | none => rw [h2] at hd; cases hd
            | some sr =>
              rw [h2] at hd
              simp only at hd
              cases h3 : evalAnon O T t names par pr sr with
              | none => rw [h3] at hd; cases hd
              | some d =>
                rw [h3] at hd
                cases hd
                exact .cons (good_anon hT hx hp.1 hs.1 h1
                  (removeE_good hT ss _ re sr he hp.2 hw.2 hs.2 h2) h3) .nil
  | .par (.anon pos t ps names ss par), c, rs, ds, h, hp, hw, hs, hd => by
    rw [removeE] at h
    rw [evalD] at hd
    simp only [proper, Bool.and_eq_true, Bool.not_eq_true'] at hp
    simp only [srcE, Bool.and_eq_true] at hs
    cases c with
    | true => simp [wf] at hw
    | false =>
      simp only [wf, Bool.and_eq_true] at hw
      cases he : removeE N T acc ss with
      | error x => rw [he] at h; cases h
      | ok re =>
        rw [he] at h
        simp only at h
        cases hx : expand N T acc pos t ps names re true with
        | error x => rw [hx] at h; cases h
        | ok r =>
          rw [hx] at h
          injection h with h
          subst h
          cases h1 : evalD O T De ps with
          | none => rw [h1] at hd; cases hd
          | some pr =>
            rw [h1] at hd
            simp only at hd
            cases h2 : evalD O T De ss with
            | none => rw [h2] at hd; cases hd
            | some sr =>
              rw [h2] at hd
              simp only at hd
              cases h3 : evalAnon O T t names true pr sr with
              | none => rw [h3] at hd; cases hd
              | some d =>
                rw [h3] at hd
                cases hd
                exact .cons (good_anon hT hx hp.1 hs.1 h1
                  (removeE_good hT ss _ re sr he hp.2 hw.2 hs.2 h2) h3) .nil
  | .num v, c, rs, ds, h, hp, hw, hs, hd => by
    cases c with
    | true => simp [wf] at hw
    | false =>
      simp only [removeE] at h; injection h with h; subst h
      exact good_plain rfl hs hd (one_of_wf _ _ hw hd)
  | .var v, c, rs, ds, h, hp, hw, hs, hd => by
    cases c with
    | true => simp [wf] at hw
    | false =>
      simp only [removeE] at h; injection h with h; subst h
      exact good_plain rfl hs hd (one_of_wf _ _ hw hd)
  | .out _ _ _, c, rs, ds, h, hp, hw, hs, hd => by simp [srcE] at hs
  | .succ _, c, rs, ds, h, hp, hw, hs, hd => by simp [srcE] at hs
  | .op _ _ as, c, rs, ds, h, hp, hw, hs, hd => by
    cases c with
    | true => simp [wf] at hw
    | false =>
      simp only [removeE] at h; injection h with h; subst h
      simp only [proper, Bool.not_eq_true'] at hp
      exact good_plain hp hs hd (one_of_wf _ _ hw hd)
  | .par .nil, c, rs, ds, h, hp, hw, hs, hd | .par (.cons _ _), c, rs, ds, h, hp, hw, hs, hd
  | .par (.num _), c, rs, ds, h, hp, hw, hs, hd
  | .par (.var _), c, rs, ds, h, hp, hw, hs, hd | .par (.out _ _ _), c, rs, ds, h, hp, hw, hs, hd
  | .par (.succ _), c, rs, ds, h, hp, hw, hs, hd | .par (.op _ _ _), c, rs, ds, h, hp, hw, hs, hd
  | .par (.array _), c, rs, ds, h, hp, hw, hs, hd | .par (.tuple _), c, rs, ds, h, hp, hw, hs, hd
  | .par (.par _), c, rs, ds, h, hp, hw, hs, hd => by
    cases c with
    | true => simp [wf] at hw
    | false =>
      simp only [removeE] at h; injection h with h; subst h
      simp only [proper, Bool.not_eq_true'] at hp
      exact good_plain hp hs hd (one_of_wf _ _ hw hd)

end Verif.Anon
