import Verif.AnonRun

/-!
Assignments of tuples: the statements for all anonymous components come first, then the assignments.
-/

namespace Verif.Anon

open Verif.Exec (envGet envSet envAdd blockGet blockSet)

set_option linter.unusedSimpArgs false
set_option linter.unusedVariables false

variable {V : Type} {O : Ops V} {T : Nat → Option Templ} {N : Names} {L C : List Nat}

theorem evalD_reads {A B : List (List (Nat × V))} : (e : SExpr) →
    (∀ x ∈ varsP e, envGet A x = envGet B x) → evalD O T A e = evalD O T B e
  | .nil, _ | .num _, _ | .out _ _ _, _ | .succ _, _ => rfl
  | .var x, h => by rw [evalD, evalD, h x (by simp [varsP])]
  | .cons e r, h => by
    rw [evalD, evalD, evalD_reads e (fun x hx => h x (by simp [varsP, hx])),
      evalD_reads r (fun x hx => h x (by simp [varsP, hx]))]
  | .op _ _ as, h => by rw [evalD, evalD, evalD_reads as h]
  | .array es, h => by rw [evalD, evalD, evalD_reads es h]
  | .tuple es, h => by rw [evalD, evalD, evalD_reads es h]
  | .anon _ _ ps _ ss _, h => by
    rw [evalD, evalD, evalD_reads ps (fun x hx => h x (by simp [varsP, hx])),
      evalD_reads ss (fun x hx => h x (by simp [varsP, hx]))]
  | .par (.anon _ _ ps _ ss _), h => by
    rw [evalD, evalD, evalD_reads ps (fun x hx => h x (by simp [varsP, hx])),
      evalD_reads ss (fun x hx => h x (by simp [varsP, hx]))]
  | .par .nil, h | .par (.num _), h | .par (.out _ _ _), h | .par (.succ _), h => rfl
  | .par (.var x), h => evalD_reads (.var x) h
  | .par (.cons e r), h => evalD_reads (.cons e r) h
  | .par (.op c k as), h => evalD_reads (.op c k as) h
  | .par (.array as), h => evalD_reads (.array as) h
  | .par (.tuple as), h => evalD_reads (.tuple as) h
  | .par (.par as), h => evalD_reads (.par as) h

theorem putAll_other {op : AOp} : (xs : List Nat) → (vs : List V) → (D D' : List (List (Nat × V))) →
    (log log' : List (Ev V)) → putAll op xs vs D log = some (D', log') →
    ∀ y, (y = underscore ∨ y ∉ xs) → envGet D' y = envGet D y
  | [], [], D, D', log, log', h, y, hy => by rw [putAll] at h; cases h; rfl
  | [], _ :: _, _, _, _, _, h, _, _ => by simp [putAll] at h
  | _ :: _, [], _, _, _, _, h, _, _ => by simp [putAll] at h
  | x :: xs, v :: vs, D, D', log, log', h, y, hy => by
    rw [putAll] at h
    cases hp : put x v D with
    | none => rw [hp] at h; cases h
    | some D1 =>
      rw [hp] at h
      simp only at h
      have hy' : y = underscore ∨ y ∉ xs := hy.imp_right (fun h' hm => h' (List.mem_cons_of_mem _ hm))
      rw [putAll_other xs vs D1 D' _ log' h y hy']
      by_cases hx : x = underscore
      · rw [put, if_pos hx] at hp
        cases hp
        rfl
      · refine put_other hp ?_
        intro e
        rcases hy with h0 | h0
        · exact hx (e ▸ h0)
        · exact h0 (e ▸ List.mem_cons_self)

/-- Expressions without anonymous components stay as they are. -/
theorem removeE_same {acc : Option Nat} : (e : SExpr) → (c : Bool) → (rs : List Res) →
    removeE N T acc e = .ok rs → hasAnon e = false → wf c e = true →
    if c then args (rs.map (·.expr)) = e ∧ ∀ r ∈ rs, r.comps = [] ∧ r.stmts = []
    else rs = [⟨[], [], e⟩]
  | .nil, c, rs, h, ha, hw => by
    cases c with
    | false => simp [wf] at hw
    | true =>
      rw [removeE] at h
      cases h
      simp only [if_true]
      exact ⟨rfl, fun r hr => by cases hr⟩
  | .cons e r, c, rs, h, ha, hw => by
    cases c with
    | false => simp [wf] at hw
    | true =>
      simp only [wf, Bool.and_eq_true] at hw
      simp only [hasAnon, Bool.or_eq_false_iff] at ha
      rw [removeE] at h
      cases he : removeE N T acc e with
      | error x => rw [he] at h; cases h
      | ok re =>
        rw [he] at h
        simp only at h
        cases hr : removeE N T acc r with
        | error x => rw [hr] at h; cases h
        | ok rr =>
          rw [hr] at h
          cases h
          have h1 := removeE_same e false re he ha.1 hw.1
          have h2 := removeE_same r true rr hr ha.2 hw.2
          simp only [Bool.false_eq_true, if_false, if_true] at h1 h2 ⊢
          subst h1
          refine ⟨by simp only [List.cons_append, List.nil_append, List.map_cons, args, h2.1], ?_⟩
          intro x hx
          rcases List.mem_append.mp hx with hx | hx
          · simp only [List.mem_singleton] at hx
            subst hx
            exact ⟨rfl, rfl⟩
          · exact h2.2 x hx
  | .array es, c, rs, h, ha, hw | .tuple es, c, rs, h, ha, hw => by
    cases c with
    | true => simp [wf] at hw
    | false =>
      simp only [wf] at hw
      rw [hasAnon] at ha
      rw [removeE] at h
      cases he : removeE N T acc es with
      | error x => rw [he] at h; cases h
      | ok re =>
        rw [he] at h
        cases h
        have h1 := removeE_same es true re he ha hw
        simp only [if_true] at h1
        have hc : re.flatMap (·.comps) = [] := List.flatMap_eq_nil_iff.mpr (fun r hr => (h1.2 r hr).1)
        have hs : re.flatMap (·.stmts) = [] := List.flatMap_eq_nil_iff.mpr (fun r hr => (h1.2 r hr).2)
        simp only [Bool.false_eq_true, if_false, hc, hs, h1.1]
  | .anon _ _ _ _ _ _, c, rs, h, ha, hw => by simp [hasAnon] at ha
  | .par e, c, rs, h, ha, hw => by
    cases c with
    | true => simp [wf] at hw
    | false =>
      rw [hasAnon] at ha
      rw [removeE_par ha] at h
      cases h
      simp
  | .num _, c, rs, h, ha, hw | .var _, c, rs, h, ha, hw | .out _ _ _, c, rs, h, ha, hw
  | .succ _, c, rs, h, ha, hw | .op _ _ _, c, rs, h, ha, hw => by
    cases c with
    | true => simp [wf] at hw
    | false =>
      simp only [removeE] at h
      cases h
      simp

/-- Neither a chain nor a tuple. -/
def leaf : SExpr → Bool
  | .nil | .cons _ _ | .tuple _ => false
  | _ => true

theorem flat_vars : (e : SExpr) → ∀ x ∈ flat e, ∀ y ∈ varsP x, y ∈ varsP e
  | .nil => by intro x hx; cases hx
  | .cons e r => by
    intro x hx y hy
    rcases List.mem_append.mp hx with hx | hx
    · exact List.mem_append_left _ (flat_vars e x hx y hy)
    · exact List.mem_append_right _ (flat_vars r x hx y hy)
  | .tuple es => flat_vars es
  | .num _ | .var _ | .out _ _ _ | .succ _ | .op _ _ _ | .array _ | .anon _ _ _ _ _ _ | .par _ => by
    intro x hx y hy
    simp only [flat, List.mem_singleton] at hx
    subst hx
    exact hy

theorem indep_nil : (xs : List Nat) → indep xs [] = true
  | [] => rfl
  | _ :: _ => rfl

theorem indep_one (xs : List Nat) (r : List Nat) : indep xs [r] = true := by
  cases xs with
  | nil => rfl
  | cons x xs => simp [indep, indep_nil]

theorem indep_outs : (xs : List Nat) → (os : List Nat) → indep xs (os.map fun _ => []) = true
  | [], _ => rfl
  | _ :: _, [] => rfl
  | x :: xs, o :: os => by
    simp only [List.map_cons, indep, Bool.and_eq_true, List.all_eq_true, decide_eq_true_eq]
    refine ⟨?_, indep_outs xs os⟩
    intro r hr
    obtain ⟨_, _, rfl⟩ := List.mem_map.mp hr
    right
    simp

theorem indep_leaf {e : SExpr} (h : leaf e = true) (xs : List Nat) : indep xs (slots T e) = true := by
  cases e with
  | nil => simp [leaf] at h
  | cons => simp [leaf] at h
  | tuple => simp [leaf] at h
  | anon _ t _ _ _ _ =>
    rw [slots]
    cases T t with
    | none => exact indep_nil xs
    | some tm => exact indep_outs xs tm.outputs
  | par e =>
    cases e with
    | anon _ t _ _ _ _ =>
      rw [slots]
      cases T t with
      | none => exact indep_nil xs
      | some tm => exact indep_outs xs tm.outputs
    | _ => exact indep_one xs _
  | _ => exact indep_one xs _

theorem mapM_len {α β : Type} {f : α → Option β} : (l : List α) → (r : List β) → l.mapM f = some r →
    r.length = l.length
  | [], r, h => by simp at h; subst h; rfl
  | a :: l, r, h => by
    rw [List.mapM_cons] at h
    cases hf : f a with
    | none => rw [hf] at h; cases h
    | some b =>
      rw [hf] at h
      simp only [Option.bind_eq_bind, Option.bind_some] at h
      cases hr : l.mapM f with
      | none => rw [hr] at h; cases h
      | some bs =>
        rw [hr] at h
        cases h
        simp only [List.length_cons, mapM_len l bs hr]

theorem anon_width {t : Nat} {names : Option (List (AOp × Nat))} {par : Bool}
    {ps ss : List (List V × List (Inst V))} {vs : List V} {is : List (Inst V)}
    (h : evalAnon O T t names par ps ss = some (vs, is)) :
    vs.length = match T t with | none => 0 | some tm => tm.outputs.length := by
  rw [evalAnon] at h
  cases ht : T t with
  | none => rw [ht] at h; cases h
  | some tm =>
    rw [ht] at h
    simp only at h ⊢
    cases hi : inputsOf tm names ss with
    | none => rw [hi] at h; cases h
    | some ins =>
      rw [hi] at h
      simp only at h
      cases hv : ins.mapM single with
      | none => rw [hv] at h; cases h
      | some ws =>
        rw [hv] at h
        simp only at h
        cases ho : tm.outputs.mapM (O.out t (ps.flatMap (·.1)) ws) with
        | none => rw [ho] at h; cases h
        | some os =>
          rw [ho] at h
          cases h
          exact mapM_len _ _ ho

theorem anon_leaf_width {env : List (List (Nat × V))} {e : SExpr} {vs : List V} {is : List (Inst V)}
    (hl : leaf e = true) (hp : proper e = true) (ha : hasAnon e = true)
    (h : evalD O T env e = some [(vs, is)]) : vs.length = width T e := by
  cases e with
  | nil => simp [leaf] at hl
  | cons => simp [leaf] at hl
  | tuple => simp [leaf] at hl
  | num => simp [hasAnon] at ha
  | var => simp [hasAnon] at ha
  | out => simp [hasAnon] at ha
  | succ => simp [hasAnon] at ha
  | op _ _ as => simp only [proper, hasAnon] at hp ha; rw [ha] at hp; cases hp
  | array es =>
    rw [evalD] at h
    cases he : evalD O T env es with
    | none => rw [he] at h; cases h
    | some rs => rw [he] at h; cases h; rfl
  | anon pos t ps names ss par =>
    rw [evalD] at h
    cases h1 : evalD O T env ps with
    | none => rw [h1] at h; cases h
    | some pr =>
      rw [h1] at h
      simp only at h
      cases h2 : evalD O T env ss with
      | none => rw [h2] at h; cases h
      | some sr =>
        rw [h2] at h
        simp only at h
        cases h3 : evalAnon O T t names par pr sr with
        | none => rw [h3] at h; cases h
        | some r =>
          rw [h3] at h
          cases h
          rw [anon_width h3]
          rfl
  | par e =>
    cases e with
    | anon pos t ps names ss par =>
      rw [evalD] at h
      cases h1 : evalD O T env ps with
      | none => rw [h1] at h; cases h
      | some pr =>
        rw [h1] at h
        simp only at h
        cases h2 : evalD O T env ss with
        | none => rw [h2] at h; cases h
        | some sr =>
          rw [h2] at h
          simp only at h
          cases h3 : evalAnon O T t names true pr sr with
          | none => rw [h3] at h; cases h
          | some r =>
            rw [h3] at h
            cases h
            rw [anon_width h3]
            rfl
    | nil => simp [hasAnon] at ha
    | cons a b => simp only [proper, hasAnon, Bool.not_eq_true'] at hp ha; rw [ha] at hp; cases hp
    | num => simp [hasAnon] at ha
    | var => simp [hasAnon] at ha
    | out => simp [hasAnon] at ha
    | succ => simp [hasAnon] at ha
    | op _ _ as => simp only [proper, hasAnon, Bool.not_eq_true'] at hp ha; rw [ha] at hp; cases hp
    | array as => simp only [proper, hasAnon, Bool.not_eq_true'] at hp ha; rw [ha] at hp; cases hp
    | tuple as => simp only [proper, hasAnon, Bool.not_eq_true'] at hp ha; rw [ha] at hp; cases hp
    | par as => simp only [proper, hasAnon, Bool.not_eq_true'] at hp ha; rw [ha] at hp; cases hp

theorem plain_width {e : SExpr} (ha : hasAnon e = false) : width T e = 1 := by
  cases e with
  | anon => simp [hasAnon] at ha
  | par e =>
    cases e with
    | anon => simp [hasAnon] at ha
    | _ => rfl
  | _ => rfl

theorem reads_vars : (e : SExpr) → srcE L e = true → ∀ x ∈ reads e, x ∈ varsP e ∧ x ∉ L
  | .nil, _ | .num _, _ | .out _ _ _, _ | .succ _, _ | .anon _ _ _ _ _ _, _ => by intro x hx; cases hx
  | .var y, h => by
    intro x hx
    simp only [reads, List.mem_singleton] at hx
    subst hx
    exact ⟨by simp [varsP], by simpa [srcE] using h⟩
  | .cons e r, h => by
    simp only [srcE, Bool.and_eq_true] at h
    intro x hx
    rcases List.mem_append.mp hx with hx | hx
    · exact ⟨List.mem_append_left _ (reads_vars e h.1 x hx).1, (reads_vars e h.1 x hx).2⟩
    · exact ⟨List.mem_append_right _ (reads_vars r h.2 x hx).1, (reads_vars r h.2 x hx).2⟩
  | .op _ _ as, h | .array as, h | .tuple as, h | .par as, h => reads_vars as h

/-- Two states of the variables in the second run that differ like those in the first. -/
theorem sim_agree {K : Nat → Nat} {d : Nat} {D D0 P P0 : List (List (Nat × V))}
    (h : Sim (cnt O C K) d D P) (h0 : Sim (cnt O C K) d D0 P0) (hd : ∀ l ∈ L, envGet D l = none)
    (hd0 : ∀ l ∈ L, envGet D0 l = none) (hC : C ⊆ L) {y : Nat} (hy : y ∈ L ∨ envGet D y = envGet D0 y) :
    envGet P y = envGet P0 y := by
  by_cases hc : y ∈ C
  · rw [sim_cnt_get h hc (hd y (hC hc)), sim_cnt_get h0 hc (hd0 y (hC hc))]
  · rw [sim_get h (by rw [cnt_names]; exact hc), sim_get h0 (by rw [cnt_names]; exact hc)]
    rcases hy with hy | hy
    · rw [hd y hy, hd0 y hy]
    · exact hy

theorem seqD_leaf {op : AOp} {e : SExpr} {xs : List Nat} {st : DSt V} (h : leaf e = true) :
    seqD O T op e xs st =
      match evalD O T st.env e with
      | some [(vs, is)] =>
        match putAll op (xs.take vs.length) vs st.env st.log with
        | none => none
        | some (env, log) => some (xs.drop vs.length, ⟨env, log, st.insts ++ is⟩)
      | _ => none := by
  cases e <;> first | rfl | simp [leaf] at h

theorem apart_leaf {e : SExpr} {before xs : List Nat} (h : leaf e = true) :
    apart T e before xs =
      if hasAnon e && (varsP e).any (fun x => decide (x ≠ underscore ∧ x ∈ before)) then none
      else some (before ++ xs.take (width T e), xs.drop (width T e)) := by
  cases e <;> first | rfl | simp [leaf] at h

/-- What an assignment of the tuple `e` to `xs` does, in the second run after the first state `P0`. -/
def Seq (O : Ops V) (T : Nat → Option Templ) (C L : List Nat) (K : Nat → Nat) (d : Nat) (op : AOp)
    (acc : Option Nat) (fuel : Nat) (P0 : PSt V) (D D' : DSt V) (rs : List Res) (used : List Nat) : Prop :=
  ∃ is, D'.insts = D.insts ++ is ∧
    ∀ Pe, (∀ y, envGet Pe y = envGet P0.env y) → ∀ log st, (∀ c ∈ rs.flatMap (·.comps), (c.1, idxK K acc) ∉ st.map (·.1)) →
    ∃ new : Store V, runP O T fuel (chain (rs.flatMap (·.stmts))) ⟨Pe, log, st⟩ = some ⟨Pe, log, st ++ new⟩ ∧
      new.map (·.1) = (rs.flatMap (·.comps)).map (fun c => (c.1, idxK K acc)) ∧ new.map (·.2) = is ∧
      ∀ st', (∀ p ∈ new, look p.1 st' = some p.2) → ∀ P1, Sim (cnt O C K) d D.env P1 →
        ∃ P2, putEach O T op used (rs.flatMap fun r => flat r.expr) ⟨P1, D.log, st'⟩ =
          some ⟨P2, D'.log, st'⟩ ∧ Sim (cnt O C K) d D'.env P2

theorem index_congr {A B : List (List (Nat × V))} {acc : Option Nat} (h : ∀ y, envGet A y = envGet B y) :
    index O A acc = index O B acc := by
  cases acc with
  | none => rfl
  | some l => simp only [index, h l]

theorem putEach_append {op : AOp} : (xs ys : List Nat) → (es fs : List SExpr) → (st st' : PSt V) →
    putEach O T op xs es st = some st' →
    putEach O T op (xs ++ ys) (es ++ fs) st = putEach O T op ys fs st'
  | [], ys, [], fs, st, st', h => by rw [putEach] at h; cases h; rfl
  | [], _, _ :: _, _, st, st', h => by simp [putEach] at h
  | _ :: _, _, [], _, st, st', h => by simp [putEach] at h
  | x :: xs, ys, e :: es, fs, st, st', h => by
    rw [putEach] at h
    rw [List.cons_append, List.cons_append, putEach]
    split at h
    · rename_i v hv
      cases hp : put x v st.env with
      | none => rw [hp] at h; cases h
      | some env =>
        rw [hp] at h
        simp only at h ⊢
        exact putEach_append xs ys es fs _ st' h
    · cases h

theorem seq_leaf (hT : ∀ t tm, T t = some tm → tm.inputs.Nodup) (hC : C ⊆ L) {K : Nat → Nat} {d : Nat}
    {op : AOp} {acc : Option Nat} (hacc : ∀ l, acc = some l → l ∈ L) {fuel : Nat} {D0 D D' : DSt V} {P0 : PSt V}
    (h0 : Rel O C L K d D0 P0) {e : SExpr} {rs : List Res} (hl : leaf e = true)
    (hr : removeE N T acc e = .ok rs) (hp : proper e = true) (hw : wf false e = true) (hs : srcE L e = true)
    (hf : ∀ r ∈ rs, ∀ x ∈ flat r.expr, hasTuple x = false) (hn : ((rs.flatMap (·.comps)).map (·.1)).Nodup)
    (hidx : rs.flatMap (·.comps) ≠ [] → index O P0.env acc = some (idxK K acc))
    {before before' xs xs' ys : List Nat} (hap : apart T e before xs = some (before', ys))
    (hx : ∀ x ∈ xs, x ∉ L) (hq : seqD O T op e xs D = some (xs', D'))
    (hag : ∀ y, (y = underscore ∨ y ∉ before) → envGet D.env y = envGet D0.env y)
    (hid : ∀ l ∈ L, envGet D.env l = none) :
    ys = xs' ∧ (∀ y, (y = underscore ∨ y ∉ before') → envGet D'.env y = envGet D0.env y) ∧
      (∀ l ∈ L, envGet D'.env l = none) ∧
      ∃ used, xs = used ++ xs' ∧ Seq O T C L K d op acc fuel P0 D D' rs used := by
  rw [seqD_leaf hl] at hq
  rw [apart_leaf hl] at hap
  split at hq
  · rename_i vs is hv
    cases hput : putAll op (xs.take vs.length) vs D.env D.log with
    | none => rw [hput] at hq; cases hq
    | some q =>
      obtain ⟨env, log⟩ := q
      rw [hput] at hq
      cases hq
      split at hap
      · cases hap
      · rename_i hcond
        cases hap
        have hxt : ∀ x ∈ xs.take vs.length, x ∉ L := fun x hm => hx x (List.mem_of_mem_take hm)
        have hreads := removeE_reads e false rs hr hp hw hs
        have hlen : rs.length = 1 := by
          have := removeE_good (n := 0) hT e _ _ _ hr hp hw hs hv
          simpa using this.length_eq
        obtain ⟨r, rfl⟩ := List.length_eq_one_iff.mp hlen
        obtain ⟨hfa, hfw, _⟩ := removeE_fine N T acc e false [r] hr hp hw r List.mem_cons_self
        simp only [List.flatMap_cons, List.flatMap_nil, List.append_nil] at hreads hn
        have hone : ∀ x ∈ flat r.expr, hasTuple x = false ∧ wf false x = true :=
          fun x hm => ⟨hf r List.mem_cons_self x hm, flat_wf r.expr false hfw x hm⟩
        have hother := putAll_other _ _ _ _ _ _ hput
        have hfin : ∀ w, w = vs.length → xs.drop w = xs.drop vs.length ∧
            (∀ y, (y = underscore ∨ y ∉ before ++ xs.take w) → envGet env y = envGet D0.env y) := by
          intro w hwl
          subst hwl
          refine ⟨rfl, fun y hy => ?_⟩
          rw [hother y (hy.imp_right (fun h hm => h (List.mem_append_right _ hm)))]
          exact hag y (hy.imp_right (fun h hm => h (List.mem_append_left _ hm)))
        have hhid : ∀ l ∈ L, envGet env l = none := by
          intro l hl
          rw [hother l (.inr (fun hm => hxt l hm hl))]
          exact hid l hl
        by_cases ha : hasAnon e = true
        · have hwid := anon_leaf_width hl hp ha hv
          obtain ⟨g1, g2⟩ := hfin _ hwid.symm
          refine ⟨g1, g2, hhid, xs.take vs.length, (List.take_append_drop _ _).symm, is, rfl, ?_⟩
          intro Pe hPe log0 st hfresh
          simp only [List.flatMap_cons, List.flatMap_nil, List.append_nil] at hidx hfresh ⊢
          simp only [ha, Bool.true_and, List.any_eq_true, decide_eq_true_eq, not_exists, not_and] at hcond
          have hv0 : evalD O T D0.env e = some [(vs, is)] := by
            rw [← hv]
            refine (evalD_reads e (fun y hy => hag y ?_)).symm
            by_cases hy0 : y = underscore
            · exact .inl hy0
            · exact .inr (hcond y hy hy0)
          have hg := removeE_good (n := idxK K acc) hT e _ _ _ hr hp hw hs hv0
          cases hg with
          | cons hg0 _ =>
            obtain ⟨new, r1, k1, i1, e1⟩ := hg0 Pe (fun y hy => (hPe y).trans (rel_vis h0 hC y hy))
              (fun hc => (index_congr hPe).trans (hidx hc)) hn fuel log0 st hfresh
            refine ⟨new, r1, k1, i1, ?_⟩
            intro st' hlook P1 hsim
            have hvars := removeE_vars e false [r] hr hp hw hs r List.mem_cons_self
            have e2 : evalP O T P1 st' r.expr = some vs := by
              rw [evalP_congr (B := Pe) r.expr (fun y hy => ?_)]
              · exact e1 st' hlook
              · rw [hPe y]
                refine sim_agree hsim h0.sim hid h0.hid hC ?_
                rcases hvars y hy with hy | hy
                · refine .inr (hag y ?_)
                  by_cases hy0 : y = underscore
                  · exact .inl hy0
                  · exact .inr (hcond y (reads_vars e hs y hy).1 hy0)
                · exact .inl (hacc y hy)
            obtain ⟨P2, p1, p2, _⟩ := puts (O := O) (T := T) (op := op) (E := P1) (st := st') hacc
              (by rw [cnt_names]; exact hC) (xs.take vs.length) (flat r.expr) (slots T e) vs D.env env P1 D.log log
              hreads hone (indep_leaf hl _) hxt ((evalP_flat _).trans e2) (fun _ _ _ _ => rfl) hsim hid hput
            exact ⟨P2, p1, p2⟩
        · have ha' : hasAnon e = false := by simpa using ha
          have hsame := removeE_same e false [r] hr ha' hw
          simp only [Bool.false_eq_true, if_false, List.cons.injEq, and_true] at hsame
          subst hsame
          obtain ⟨pl1, pl2⟩ := plain e _ ha' hs hv
          have his : is = [] := pl1 _ List.mem_cons_self
          subst his
          have hev : ∀ Pe st, Vis L D.env Pe → evalP O T Pe st e = some vs := by
            intro Pe st h
            have := pl2 Pe st h
            simpa using this
          have hfl : flat e = [e] := by cases e <;> first | rfl | simp [leaf] at hl
          have hvl : vs.length = 1 := by
            obtain ⟨v, rfl⟩ := one_val e vs (hf _ List.mem_cons_self e (by simp [hfl])) hw
              (hev D.env [] (fun _ _ => rfl))
            rfl
          obtain ⟨g1, g2⟩ := hfin (width T e) (by rw [plain_width ha', hvl])
          refine ⟨g1, g2, hhid, xs.take vs.length, (List.take_append_drop _ _).symm, [], rfl, ?_⟩
          intro Pe hPe log0 st hfresh
          refine ⟨[], by simp [chain, runP], rfl, rfl, ?_⟩
          intro st' hlook P1 hsim
          have e2 : evalP O T P1 st' e = some vs := hev P1 st'
            (fun x hx => sim_get hsim (by rw [cnt_names]; exact fun hc => hx (hC hc)))
          obtain ⟨P2, p1, p2, _⟩ := puts (O := O) (T := T) (op := op) (E := P1) (st := st') hacc
              (by rw [cnt_names]; exact hC) (xs.take vs.length) (flat e) (slots T e) vs D.env env P1 D.log log
              hreads hone (indep_leaf hl _) hxt ((evalP_flat _).trans e2) (fun _ _ _ _ => rfl) hsim hid hput
          refine ⟨P2, ?_, p2⟩
          simpa using p1
  · cases hq

theorem seq_rel (hT : ∀ t tm, T t = some tm → tm.inputs.Nodup) (hC : C ⊆ L) {K : Nat → Nat} {d : Nat}
    {op : AOp} {acc : Option Nat} (hacc : ∀ l, acc = some l → l ∈ L) {fuel : Nat} {D0 : DSt V} {P0 : PSt V}
    (h0 : Rel O C L K d D0 P0) : (e : SExpr) → (c : Bool) → (rs : List Res) →
    removeE N T acc e = .ok rs → proper e = true → wf c e = true → srcE L e = true →
    (∀ r ∈ rs, ∀ x ∈ flat r.expr, hasTuple x = false) → ((rs.flatMap (·.comps)).map (·.1)).Nodup →
    (rs.flatMap (·.comps) ≠ [] → index O P0.env acc = some (idxK K acc)) →
    ∀ before before' xs xs' ys : List Nat, apart T e before xs = some (before', ys) → (∀ x ∈ xs, x ∉ L) →
    ∀ D D' : DSt V, seqD O T op e xs D = some (xs', D') →
    (∀ y, (y = underscore ∨ y ∉ before) → envGet D.env y = envGet D0.env y) →
    (∀ l ∈ L, envGet D.env l = none) →
    ys = xs' ∧ (∀ y, (y = underscore ∨ y ∉ before') → envGet D'.env y = envGet D0.env y) ∧
      (∀ l ∈ L, envGet D'.env l = none) ∧
      ∃ used, xs = used ++ xs' ∧ Seq O T C L K d op acc fuel P0 D D' rs used
  | .nil, c, rs, hr, hp, hw, hs, hf, hn, hidx, before, before', xs, xs', ys, hap, hx, D, D', hq, hag, hid => by
    rw [removeE] at hr
    cases hr
    rw [apart] at hap
    cases hap
    rw [seqD] at hq
    cases hq
    refine ⟨rfl, hag, hid, [], rfl, [], (List.append_nil _).symm, ?_⟩
    intro Pe hPe log st hfresh
    refine ⟨[], by simp [chain, runP], rfl, rfl, ?_⟩
    intro st' hlook P1 hsim
    exact ⟨P1, rfl, hsim⟩
  | .cons e r, c, rs, hr, hp, hw, hs, hf, hn, hidx, before, before', xs, xs', ys, hap, hx, D, D', hq, hag, hid => by
    cases c with
    | false => simp [wf] at hw
    | true =>
      simp only [wf, proper, srcE, Bool.and_eq_true] at hw hp hs
      rw [removeE] at hr
      cases hre : removeE N T acc e with
      | error x => rw [hre] at hr; cases hr
      | ok re =>
        rw [hre] at hr
        simp only at hr
        cases hrr : removeE N T acc r with
        | error x => rw [hrr] at hr; cases hr
        | ok rr =>
          rw [hrr] at hr
          cases hr
          rw [apart] at hap
          rw [seqD] at hq
          cases hap1 : apart T e before xs with
          | none => rw [hap1] at hap; cases hap
          | some q =>
            obtain ⟨before1, ys1⟩ := q
            rw [hap1] at hap
            cases hq1 : seqD O T op e xs D with
            | none => rw [hq1] at hq; cases hq
            | some q =>
              obtain ⟨xs1, D1⟩ := q
              rw [hq1] at hq
              simp only at hap hq
              rw [List.flatMap_append] at hn hidx
              rw [List.map_append, List.nodup_append] at hn
              obtain ⟨rfl, hag1, hid1, used1, hu1, is1, hi1, s1⟩ := seq_rel hT hC hacc h0 e false re hre hp.1 hw.1 hs.1
                (fun r hr => hf r (List.mem_append_left _ hr)) hn.1
                (fun hne => hidx (fun e => hne (List.append_eq_nil_iff.mp e).1)) before before1 xs xs1 ys1 hap1 hx
                D D1 hq1 hag hid
              have hx1 : ∀ x ∈ ys1, x ∉ L := fun x hm => hx x (by rw [hu1]; exact List.mem_append_right _ hm)
              obtain ⟨rfl, hag2, hid2, used2, hu2, is2, hi2, s2⟩ := seq_rel hT hC hacc h0 r true rr hrr hp.2 hw.2 hs.2
                (fun r hr => hf r (List.mem_append_right _ hr)) hn.2.1
                (fun hne => hidx (fun e => hne (List.append_eq_nil_iff.mp e).2)) before1 before' ys1 xs' ys hap hx1
                D1 D' hq hag1 hid1
              refine ⟨rfl, hag2, hid2, used1 ++ used2, by rw [hu1, hu2, List.append_assoc], is1 ++ is2,
                by rw [hi2, hi1, List.append_assoc], ?_⟩
              intro Pe hPe log st hfresh
              rw [List.flatMap_append] at hfresh
              obtain ⟨new1, r1, k1, i1, e1⟩ := s1 Pe hPe log st (fun c hc => hfresh c (List.mem_append_left _ hc))
              obtain ⟨new2, r2, k2, i2, e2⟩ := s2 Pe hPe log (st ++ new1) (by
                intro c hc hm
                rw [List.map_append] at hm
                rcases List.mem_append.mp hm with hm | hm
                · exact hfresh c (List.mem_append_right _ hc) hm
                · rw [k1] at hm
                  obtain ⟨c', hc', he⟩ := List.mem_map.mp hm
                  have he : c'.1 = c.1 := (Prod.mk.inj he).1
                  exact hn.2.2 _ (List.mem_map_of_mem hc') _ (List.mem_map_of_mem hc) he)
              refine ⟨new1 ++ new2, ?_, ?_, ?_, ?_⟩
              · rw [List.flatMap_append, run_append, r1]
                simp only
                rw [r2, List.append_assoc]
              · rw [List.map_append, k1, k2, List.flatMap_append, List.map_append]
              · rw [List.map_append, i1, i2]
              · intro st' hlook P1 hsim
                obtain ⟨P2, p1, hs1⟩ := e1 st' (fun p hp => hlook p (List.mem_append_left _ hp)) P1 hsim
                obtain ⟨P3, p2, hs2⟩ := e2 st' (fun p hp => hlook p (List.mem_append_right _ hp)) P2 hs1
                refine ⟨P3, ?_, hs2⟩
                rw [List.flatMap_append, putEach_append _ _ _ _ _ _ p1]
                exact p2
  | .tuple es, c, rs, hr, hp, hw, hs, hf, hn, hidx, before, before', xs, xs', ys, hap, hx, D, D', hq, hag, hid => by
    cases c with
    | true => simp [wf] at hw
    | false =>
      simp only [wf, proper, srcE] at hw hp hs
      rw [removeE] at hr
      cases hre : removeE N T acc es with
      | error x => rw [hre] at hr; cases hr
      | ok re =>
        rw [hre] at hr
        cases hr
        rw [apart] at hap
        rw [seqD] at hq
        have hfl : flat (.tuple (args (re.map (·.expr)))) = re.flatMap fun r => flat r.expr := by
          rw [flat, flat_args, List.flatMap_map]
        simp only [List.flatMap_cons, List.flatMap_nil, List.append_nil] at hn hidx
        obtain ⟨g1, g2, g3, used, g4, is, g5, g6⟩ := seq_rel hT hC hacc h0 es true re hre hp hw hs
          (fun r hr x hx => hf _ List.mem_cons_self x (by rw [hfl]; exact List.mem_flatMap.mpr ⟨r, hr, hx⟩)) hn
          hidx before before' xs xs' ys hap hx D D' hq hag hid
        refine ⟨g1, g2, g3, used, g4, is, g5, ?_⟩
        simp only [List.flatMap_cons, List.flatMap_nil, List.append_nil, hfl]
        exact g6
  | .num v, c, rs, hr, hp, hw, hs, hf, hn, hidx, before, before', xs, xs', ys, hap, hx, D, D', hq, hag, hid
  | .var v, c, rs, hr, hp, hw, hs, hf, hn, hidx, before, before', xs, xs', ys, hap, hx, D, D', hq, hag, hid
  | .out _ _ _, c, rs, hr, hp, hw, hs, hf, hn, hidx, before, before', xs, xs', ys, hap, hx, D, D', hq, hag, hid
  | .succ _, c, rs, hr, hp, hw, hs, hf, hn, hidx, before, before', xs, xs', ys, hap, hx, D, D', hq, hag, hid
  | .op _ _ _, c, rs, hr, hp, hw, hs, hf, hn, hidx, before, before', xs, xs', ys, hap, hx, D, D', hq, hag, hid
  | .array _, c, rs, hr, hp, hw, hs, hf, hn, hidx, before, before', xs, xs', ys, hap, hx, D, D', hq, hag, hid
  | .anon _ _ _ _ _ _, c, rs, hr, hp, hw, hs, hf, hn, hidx, before, before', xs, xs', ys, hap, hx, D, D', hq, hag, hid
  | .par _, c, rs, hr, hp, hw, hs, hf, hn, hidx, before, before', xs, xs', ys, hap, hx, D, D', hq, hag, hid => by
    cases c with
    | true => simp [wf] at hw
    | false => exact seq_leaf hT hC hacc h0 rfl hr hp hw hs hf hn hidx hap hx hq hag hid

/-- The statements written for an assignment of a tuple, then the assignments one after another. -/
theorem mult_rel (law : ∀ n : Nat, O.idx (O.num n) = some n)
    (hT : ∀ t tm, T t = some tm → tm.inputs.Nodup) {K : Nat → Nat} {d : Nat} {D D' : DSt V} {P : PSt V}
    {op : AOp} {acc : Option Nat} {e : SExpr} {r : Res} {xs : List Nat}
    (hr : Rel O C L K d D P) (hC : C ⊆ L) (hacc : ∀ l, acc = some l → l ∈ L)
    (h : removeE N T acc e = .ok [r]) (hp : proper e = true) (hw : wf false e = true) (hs : srcE L e = true)
    (hf : ∀ x ∈ flat r.expr, hasTuple x = false)
    (hn : (r.comps.map (·.1)).Nodup) (hac : r.comps ≠ [] → ∀ l, acc = some l → l ∈ C)
    (hfr : Fresh K P r.comps) (hx : ∀ x ∈ xs, x ∉ L) (hap : (apart T e [] xs).isSome = true)
    (hq : seqD O T op e xs D = some ([], D')) (fuel : Nat) :
    ∃ new E, runP O T fuel (chain r.stmts) P = some ⟨P.env, P.log, P.store ++ new⟩ ∧
      runP O T fuel (chain r.stmts) ⟨[] :: P.env, P.log, P.store⟩ =
        some ⟨[] :: P.env, P.log, P.store ++ new⟩ ∧
      putEach O T op xs (flat r.expr) ⟨P.env, P.log, P.store ++ new⟩ = some ⟨E, D'.log, P.store ++ new⟩ ∧
      Rel O C L K d D' ⟨E, D'.log, P.store ++ new⟩ ∧ Keys r.comps [] acc K K (new.map (·.1)) := by
  have hcm := removeE_comps e _ h r List.mem_cons_self
  have hfresh : ∀ c ∈ r.comps, (c.1, idxK K acc) ∉ P.store.map (·.1) := by
    intro c hc hm
    obtain ⟨l, hl, hlt⟩ := hfr c hc _ hm
    rw [hcm c hc] at hl
    subst hl
    simp [idxK] at hlt
  cases hap0 : apart T e [] xs with
  | none => rw [hap0] at hap; cases hap
  | some q =>
    obtain ⟨bf, ys⟩ := q
    obtain ⟨_, _, hid', used, hu, is, hi, hseq⟩ := seq_rel (N := N) (O := O) (fuel := fuel) (op := op) hT hC hacc hr e false
      [r] h hp hw hs (fun r' hr' => by rw [List.mem_singleton.mp hr']; exact hf)
      (by simpa using hn) (fun hc => rel_index law hr hC (hac (by simpa using hc))) [] bf xs [] ys hap0 hx D D' hq
      (fun _ _ => rfl) hr.hid
    rw [List.append_nil] at hu
    subst hu
    simp only [List.flatMap_cons, List.flatMap_nil, List.append_nil] at hseq
    obtain ⟨new, r1, k1, i1, e1⟩ := hseq P.env (fun _ => rfl) P.log P.store hfresh
    obtain ⟨new', r2, k2, i2, e2⟩ := hseq ([] :: P.env) (fun _ => rfl) P.log P.store hfresh
    have hnn : new' = new := pairs_ext (by rw [k1, k2]) (by rw [i1, i2])
    subst hnn
    have hnd : (new'.map (·.1)).Nodup := by rw [k1]; exact keys_nodup _ hn
    have hdis : ∀ p ∈ new', p.1 ∉ P.store.map (·.1) := by
      intro p hp
      have : p.1 ∈ new'.map (·.1) := List.mem_map_of_mem hp
      rw [k1] at this
      obtain ⟨c, hc, hce⟩ := List.mem_map.mp this
      rw [← hce]
      exact hfresh c hc
    obtain ⟨E, p1, p2⟩ := e1 _ (look_new hdis hnd) P.env hr.sim
    rw [← hr.log] at p1
    refine ⟨new', E, r1, r2, p1, ⟨p2, hid', rfl, ?_, ?_⟩, ?_⟩
    · rw [List.map_append, hr.insts, i1, hi]
    · rw [List.map_append, List.nodup_append]
      refine ⟨hr.nodup, hnd, ?_⟩
      intro a ha b hb hab
      subst hab
      obtain ⟨p, hp, rfl⟩ := List.mem_map.mp hb
      exact hdis p hp ha
    · intro k hk
      rw [k1] at hk
      obtain ⟨c, hc, rfl⟩ := List.mem_map.mp hk
      exact ⟨c, hc, rfl, .inl ⟨hcm c hc, rfl⟩⟩

end Verif.Anon
