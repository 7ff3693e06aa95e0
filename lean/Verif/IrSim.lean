import Verif.IrLemmas

/-!
# Simulation of expressions
-/

set_option linter.unusedSimpArgs false
set_option linter.unusedVariables false

namespace Verif.Ir

variable {K : Type}

/-! ## Results -/

/-- The second result is what the first one asks for; nothing is asked for if the first one is undefined. -/
def Sim {α β : Type} (R : α → β → Prop) : Except Err (α × List (Ev K)) → Except Err (β × List (Ev K)) → Prop
  | .error .stuck, _ => True
  | .error e, r => r = .error e
  | .ok (a, evs), r => ∃ b, r = .ok (b, evs) ∧ R a b

theorem Sim.cases {α β : Type} {R : α → β → Prop} {a : Except Err (α × List (Ev K))} {b : Except Err (β × List (Ev K))}
    (h : Sim R a b) : a = .error .stuck ∨ (∃ e, e ≠ .stuck ∧ a = .error e ∧ b = .error e) ∨
      ∃ x y evs, a = .ok (x, evs) ∧ b = .ok (y, evs) ∧ R x y := by
  rcases a with (_ | _ | _) | ⟨x, evs⟩
  · exact Or.inr (Or.inl ⟨_, by simp, rfl, h⟩)
  · exact Or.inr (Or.inl ⟨_, by simp, rfl, h⟩)
  · exact Or.inl rfl
  · obtain ⟨y, h1, h2⟩ := h
    exact Or.inr (Or.inr ⟨x, y, evs, rfl, h1, h2⟩)

theorem sim_stuck {α β : Type} {R : α → β → Prop} {b : Except Err (β × List (Ev K))} : Sim R (.error .stuck) b := trivial

theorem sim_err {α β : Type} {R : α → β → Prop} (e : Err) : Sim (K := K) R (.error e) (.error e) := by
  cases e <;> simp [Sim]

theorem sim_ok {α β : Type} {R : α → β → Prop} {x : α} {y : β} {evs : List (Ev K)} (h : R x y) : Sim R (.ok (x, evs)) (.ok (y, evs)) :=
  ⟨y, rfl, h⟩

theorem Sim.imp {α β : Type} {R R' : α → β → Prop} {a : Except Err (α × List (Ev K))} {b : Except Err (β × List (Ev K))}
    (h : Sim R a b) (hr : ∀ x y, R x y → R' x y) : Sim R' a b := by
  rcases h.cases with rfl | ⟨e, _, rfl, rfl⟩ | ⟨x, y, evs, rfl, rfl, hxy⟩
  · exact sim_stuck
  · exact sim_err e
  · exact sim_ok (hr _ _ hxy)

/-! ## Constants -/

theorem intern_spec {α : Type} [DecidableEq α] (C : List α) (a : α) :
    C <+: (intern C a).2 ∧ (intern C a).2[(intern C a).1]? = some a := by
  unfold intern
  by_cases h : a ∈ C
  · rw [if_pos h]
    refine ⟨List.prefix_refl _, ?_⟩
    have h1 := List.idxOf_lt_length_iff.mpr h
    rw [List.getElem?_eq_getElem h1, List.getElem_idxOf h1]
  · rw [if_neg h]
    exact ⟨List.prefix_append _ _, by simp⟩

theorem prefix_get {α : Type} {C C' : List α} (h : C <+: C') {k : Nat} {a : α} (hk : C[k]? = some a) : C'[k]? = some a := by
  obtain ⟨t, rfl⟩ := h
  have := (List.getElem?_eq_some_iff.mp hk).1
  rw [List.getElem?_append_left this, hk]

/-! ## Sums -/

/-- Values of instructions added up. -/
def evSum (S : Sem K) (cfg : Cfg) (F : IFns K) (m : Mem K) : List I → Except Err (Int × List (Ev K))
  | [] => .ok (0, [])
  | j :: js =>
    match ev S cfg F m j with
    | .error e => .error e
    | .ok (.int z, evs) =>
      match evSum S cfg F m js with
      | .error e => .error e
      | .ok (s, evs') => .ok (z + s, evs ++ evs')
    | .ok _ => .error .stuck

theorem ev_foldl_err {S : Sem K} {cfg : Cfg} {F : IFns K} {m : Mem K} {e : Err} : ∀ (l : List I) (acc : I),
    ev S cfg F m acc = .error e → ev S cfg F m (l.foldl (fun acc x => .comp2 .addAddress acc x) acc) = .error e
  | [], acc, h => h
  | x :: l, acc, h => by
    rw [List.foldl_cons]
    exact ev_foldl_err l _ (by simp only [ev, h])

theorem ev_foldl {S : Sem K} {cfg : Cfg} {F : IFns K} {m : Mem K} : ∀ (l : List I) (acc : I) (z : Int) (evs : List (Ev K)),
    ev S cfg F m acc = .ok (.int z, evs) → ev S cfg F m (l.foldl (fun acc x => .comp2 .addAddress acc x) acc) =
      match evSum S cfg F m l with
      | .error e => .error e
      | .ok (s, evs') => .ok (.int (z + s), evs ++ evs')
  | [], acc, z, evs, h => by simp [evSum, h]
  | x :: l, acc, z, evs, h => by
    rw [List.foldl_cons]
    rcases hx : ev S cfg F m x with e | ⟨w, evs'⟩
    · rw [ev_foldl_err l (e := e) _ (by simp only [ev, h, hx])]
      simp only [evSum, hx]
    · cases w with
      | int y =>
        rw [ev_foldl l _ (z + y) (evs ++ evs') (by simp only [ev, h, hx, doComp2])]
        simp only [evSum, hx]
        rcases evSum S cfg F m l with e | ⟨s, evs''⟩
        · rfl
        · simp only [Int.add_assoc, List.append_assoc]
      | fld ks =>
        rw [ev_foldl_err l (e := .stuck) _ (by simp only [ev, h, hx, doComp2, frInfix])]
        simp only [evSum, hx]

theorem evSum_append {S : Sem K} {cfg : Cfg} {F : IFns K} {m : Mem K} (a : Nat) : ∀ l : List I,
    evSum S cfg F m (l ++ [.u32 a]) =
      match evSum S cfg F m l with
      | .error e => .error e
      | .ok (s, evs) => .ok (s + a, evs)
  | [] => by simp [evSum, ev]
  | x :: l => by
    simp only [List.cons_append, evSum, evSum_append a l]
    rcases ev S cfg F m x with e | ⟨_ | _, evs⟩
    · rfl
    · rcases evSum S cfg F m l with e | ⟨s, evs'⟩
      · rfl
      · simp only [Int.add_assoc]
    · rfl

/-- The address is the sum of the products and the address of the symbol. -/
theorem ev_foldStack {S : Sem K} {cfg : Cfg} {F : IFns K} {m : Mem K} {js : List I} {a : Nat} {loc : I}
    (h : foldStack (js ++ [.u32 a]) = some loc) (hs : evSum S cfg F m js ≠ .error .stuck) :
    ev S cfg F m loc =
      match evSum S cfg F m js with
      | .error e => .error e
      | .ok (s, evs) => .ok (.int (s + a), evs) := by
  cases js with
  | nil =>
    simp only [List.nil_append, foldStack, List.foldl_nil, Option.some.injEq] at h
    subst h
    simp [ev, evSum]
  | cons j js =>
    simp only [List.cons_append, foldStack, Option.some.injEq] at h
    subst h
    rcases hx : ev S cfg F m j with e | ⟨w, evs'⟩
    · rw [ev_foldl_err _ (e := e) _ hx]
      simp only [evSum, hx]
    · cases w with
      | int y =>
        rw [ev_foldl _ _ y evs' hx, evSum_append]
        simp only [evSum, hx]
        rcases evSum S cfg F m js with e | ⟨s, evs''⟩
        · rfl
        · simp only [Int.add_assoc]
      | fld ks =>
        simp only [evSum, hx] at hs
        exact absurd rfl hs

/-- Offset by the indices. -/
def wsum : Nat → List Nat → List Int → Int
  | len, d :: ds, z :: zs => ((len / d : Nat) : Int) * z + wsum (len / d) ds zs
  | _, _, _ => 0

theorem wsum_off : ∀ (d p : List Nat), 0 ∉ d → within d p = true → wsum (prod d) d (p.map fun n : Nat => (n : Int)) = (off d p : Nat)
  | d, [], _, _ => by cases d <;> simp [wsum, off]
  | [], i :: p, _, h => by simp [within] at h
  | x :: d, i :: p, h0, h => by
    simp only [within, Bool.and_eq_true] at h
    have hx : 0 < x := Nat.pos_of_ne_zero fun e => h0 (by simp [e])
    have ih := wsum_off d p (fun e => h0 (List.mem_cons_of_mem _ e)) h.2
    have : prod (x :: d) / x = prod d := by rw [prod, Nat.mul_div_cancel_left _ hx]
    simp only [List.map_cons, wsum, this, ih, off]
    push_cast
    ring

/-- Machine integers of values. -/
def toInts (S : Sem K) : List (Val K) → Option (List Int)
  | [] => some []
  | v :: vs =>
    match v.num with
    | none => none
    | some k =>
      match S.toInt k with
      | none => none
      | some z => (toInts S vs).map (z :: ·)

theorem toPath_ints {S : Sem K} : ∀ {vs : List (Val K)} {p : List Nat} {zs : List Int}, toPath S vs = some p → toInts S vs = some zs →
    zs = p.map fun n : Nat => (n : Int)
  | [], p, zs, h1, h2 => by
    simp only [toPath, toInts, Option.some.injEq] at h1 h2
    subst h1 h2; rfl
  | v :: vs, p, zs, h1, h2 => by
    simp only [toPath, toInts] at h1 h2
    cases hn : v.num with
    | none => simp [hn] at h1
    | some k =>
      cases hz : S.toInt k with
      | none => simp [hn, hz] at h1
      | some z =>
        simp only [hn, hz] at h1 h2
        by_cases hneg : z < 0
        · simp [hneg] at h1
        · rw [if_neg hneg] at h1
          cases hp : toPath S vs with
          | none => simp [hp] at h1
          | some p' =>
            cases hi : toInts S vs with
            | none => simp [hi] at h2
            | some zs' =>
              simp only [hp, hi, Option.map_some, Option.some.injEq] at h1 h2
              subst h1 h2
              simp only [List.map_cons, toPath_ints hp hi, List.cons.injEq, and_true]
              omega

theorem accSize_spec : ∀ (d : List Nat) (is : List I) (n size : Nat), n = prod d → 0 ∉ d → accSize n d is = some size →
    size = prod (d.drop is.length)
  | d, [], n, size, hn, _, h => by simp [accSize] at h; simp [← h, hn]
  | [], _ :: _, _, _, _, _, h => by simp [accSize] at h
  | x :: d, i :: is, n, size, hn, h0, h => by
    have hx : x ≠ 0 := fun e => h0 (by simp [e])
    simp only [accSize, hx, if_false] at h
    have : n / x = prod d := by rw [hn, prod, Nat.mul_div_cancel_left _ (Nat.pos_of_ne_zero hx)]
    exact accSize_spec d is _ size this (fun e => h0 (List.mem_cons_of_mem _ e)) h

/-! ## Expressions -/

/-- The compiled function does what the function does, if called with an arena of this size. -/
def FSim (rd : Name → Option (List Nat)) (F : Fns K) (IF : IFns K) (f : Name) (arena : Nat) : Prop :=
  ∀ vs ks, RepL vs ks →
    Sim (fun v (r : Nat × List K) => rd f = some v.dims ∧ r.1 = prod v.dims ∧ Rep v r.2) (F f vs) (IF f ks arena)

theorem sim_result {β : Type} {S : Sem K} {ix : Bool} {v : Val K} {evs : List (Ev K)} {R : List (Val K) → β → Prop} {w : β}
    (h : R [v] w) : Sim R (result S ix v evs) (.ok (w, evs)) := by
  unfold result
  cases ix with
  | false => exact sim_ok h
  | true =>
    simp only [if_true]
    cases v.num with
    | none => exact sim_stuck
    | some k =>
      by_cases hk : (S.toInt k).isSome = true
      · simp only [hk, if_true]; exact sim_ok h
      · simp only [hk, if_false]; exact sim_stuck

theorem sim_result_ix {β : Type} {S : Sem K} {v : Val K} {evs : List (Ev K)} {R : List (Val K) → β → Prop}
    {b : Except Err (β × List (Ev K))}
    (h : ∀ k z, v.num = some k → S.toInt k = some z → ∃ w, b = .ok (w, evs) ∧ R [v] w) : Sim R (result S true v evs) b := by
  unfold result
  simp only [if_true]
  cases hv : v.num with
  | none => exact sim_stuck
  | some k =>
    cases hk : S.toInt k with
    | none => simp [hk]; exact sim_stuck
    | some z =>
      obtain ⟨w, rfl, hw⟩ := h k z hv hk
      simp [hk]; exact sim_ok hw

/-- Relation for values. -/
def RV (vs : List (Val K)) (w : V K) : Prop := ∃ ks, w = .fld ks ∧ RepL vs ks

/-- Relation for indices. -/
def RX (S : Sem K) (vs : List (Val K)) (w : V K) : Prop := ∃ v k z, vs = [v] ∧ v.num = some k ∧ S.toInt k = some z ∧ w = .int z

theorem repL_one {v : Val K} {ks : List K} (h : RepL [v] ks) : Rep v ks := by
  cases h with
  | cons h1 h2 => cases h2; simpa using h1

theorem one_repL {v : Val K} {ks : List K} (h : Rep v ks) : RepL [v] ks := by
  have := RepL.cons h RepL.nil
  simpa using this

/-- Evaluation as an index gives a machine integer. -/
theorem result_ix {S : Sem K} {v : Val K} {evs evs' : List (Ev K)} {vs : List (Val K)} (h : result S true v evs = .ok (vs, evs')) :
    ∃ v k z, vs = [v] ∧ v.num = some k ∧ S.toInt k = some z := by
  unfold result at h
  simp only [if_true] at h
  cases hv : v.num with
  | none => simp [hv] at h
  | some k =>
    cases hk : S.toInt k with
    | none => simp [hv, hk] at h
    | some z =>
      simp [hv, hk] at h
      exact ⟨v, k, z, h.1.symm, hv, hk⟩

theorem eval_ix {S : Sem K} {tags : List Name → Option Nat} {F : Fns K} {E : Frames K} {e : Expr} (hv : e.isVal = true)
    {vs : List (Val K)} {evs : List (Ev K)} (h : eval S tags F E e true = .ok (vs, evs)) :
    ∃ v k z, vs = [v] ∧ v.num = some k ∧ S.toInt k = some z := by
  cases e with
  | num n => exact result_ix h
  | tag x fs =>
    simp only [eval] at h
    cases ht : tags (x :: fs) with
    | none => simp [ht] at h
    | some n => simp only [ht] at h; exact result_ix h
  | var sig x idx =>
    simp only [eval] at h
    rcases hi : eval S tags F E idx false with e | ⟨is, evs'⟩
    · simp [hi] at h
    · simp only [hi] at h
      split at h
      · split at h
        · exact result_ix h
        · cases h
      · cases h
  | inf op l r =>
    simp only [eval] at h
    split at h
    · cases h
    · split at h
      · cases h
      · split at h
        · split at h
          · split at h
            · cases h
            · exact result_ix h
          · cases h
        · cases h
  | pre op e =>
    simp only [eval] at h
    split at h
    · cases h
    · split at h
      · cases h
      · split at h
        · cases h
        · exact result_ix h
    · cases h
  | call f args =>
    simp only [eval] at h
    split at h
    · cases h
    · split at h
      · cases h
      · exact result_ix h
  | nil => simp [Expr.isVal] at hv
  | cons d e rest => simp [Expr.isVal] at hv
  | icons e rest => simp [Expr.isVal] at hv

theorem to_address {S : Sem K} {cfg : Cfg} {tags : List Name → Option Nat} {F : Fns K} {IF : IFns K} {m : Mem K} {E : Frames K}
    {e : Expr} (hv : e.isVal = true) {i : I} (h : Sim RV (eval S tags F E e true) (ev S cfg IF m i)) :
    Sim (RX S) (eval S tags F E e true) (ev S cfg IF m (.comp1 .toAddress i)) := by
  rcases h.cases with h1 | ⟨er, _, h1, h2⟩ | ⟨x, y, evs, h1, h2, ks, rfl, hr⟩
  · rw [h1]; exact sim_stuck
  · simp only [ev, h1, h2]; exact sim_err er
  · obtain ⟨v, k, z, rfl, hk, hz⟩ := eval_ix hv h1
    have := rep_num (repL_one hr) hk
    subst this
    simp only [ev, h1, h2, doComp1, hz, Option.map_some]
    exact sim_ok ⟨v, k, z, rfl, hk, hz, rfl⟩

/-- All that is needed of the surroundings. -/
structure Ctx (S : Sem K) (rd : Name → Option (List Nat)) (cfg : Cfg) (F : Fns K) (IF : IFns K) (m : Mem K)
    (E : Frames K) (env : TEnv) : Prop where
  laws : Laws S
  mem : Mt m E env
  bound : ∀ info ∈ entries env, info.addr + info.size ≤ cfg.size info.sig

/-- What is shown of an expression or a chain. -/
structure Good (S : Sem K) (tags : List Name → Option Nat) (cfg : Cfg) (F : Fns K) (IF : IFns K) (m : Mem K)
    (E : Frames K) (e : Expr) (i : I) (C' : List Nat) : Prop where
  val : (e.isVal || e.isArgs) = true → ∀ ix, Sim RV (eval S tags F E e ix) (ev S cfg IF m i)
  conv : e.isVal = true → ∀ C1, C' <+: C1 → C1 <+: cfg.consts → ∀ j, convert C1 i = some j →
    Sim (RX S) (eval S tags F E e true) (ev S cfg IF m j)
  idx : e.isIdx = true → ∀ C1, C' <+: C1 → C1 <+: cfg.consts → ∀ len dims js, jumps C1 len dims i.list = some js →
    Sim (fun vs z => ∃ zs, toInts S vs = some zs ∧ zs.length = i.list.length ∧ z = wsum len dims zs)
      (eval S tags F E e false) (evSum S cfg IF m js)

/-- Address of an access. -/
theorem symbol_sim {S : Sem K} {tags : List Name → Option Nat} {rd : Name → Option (List Nat)} {cfg : Cfg} {F : Fns K} {IF : IFns K}
    {m : Mem K} {E : Frames K} {env : TEnv} (hx : Ctx S rd cfg F IF m E env) {x : Name} {idx : Expr} {C C' : List Nat} {loc : I}
    {size : Nat} (hi : idx.isIdx = true)
    (hidx : ∀ i C', trE tags env idx C = some (i, C') → C' <+: cfg.consts → Good S tags cfg F IF m E idx i C')
    (h : symbol tags env x idx C = some (loc, size, C')) (hC : C' <+: cfg.consts) :
    Sim (fun vs w => (∃ z, w = .int z) ∧ ∀ ent p, find x E = some ent → toPath S vs = some p → within ent.val.dims p = true →
        ∃ info, find x env = some info ∧ CellR m ent info ∧ info ∈ entries env ∧
          w = .int ((info.addr + off info.dims p : Nat) : Int) ∧ size = prod (info.dims.drop p.length))
      (eval S tags F E idx false) (ev S cfg IF m loc) := by
  unfold symbol at h
  cases hf : find x env with
  | none => simp [hf] at h
  | some info =>
    cases ht : trE tags env idx C with
    | none => simp [hf, ht] at h
    | some r =>
      obtain ⟨ix, C1⟩ := r
      simp only [hf, ht] at h
      cases ha : accSize info.size info.dims ix.list with
      | none => simp [ha] at h
      | some sz =>
        cases hl : fullAddress C1 info ix.list with
        | none => simp [ha, hl] at h
        | some l =>
          simp only [ha, hl, Option.some.injEq, Prod.mk.injEq] at h
          obtain ⟨rfl, rfl, rfl⟩ := h
          unfold fullAddress at hl
          cases hj : jumps C1 info.size info.dims ix.list with
          | none => simp [hj] at hl
          | some js =>
            simp only [hj] at hl
            have hg := (hidx ix C1 ht hC).idx hi C1 (List.prefix_refl _) hC _ _ _ hj
            rcases hg.cases with h1 | ⟨er, hne, h1, h2⟩ | ⟨vs, z, evs, h1, h2, zs, h3, h4, h5⟩
            · rw [h1]; exact sim_stuck
            · have := ev_foldStack hl (by rw [h2]; simpa using hne)
              rw [h1, this, h2]; exact sim_err er
            · have := ev_foldStack hl (by rw [h2]; simp)
              rw [h1, this, h2]
              refine sim_ok ⟨⟨_, rfl⟩, ?_⟩
              intro ent p hent hp hw
              rcases find_rel (x := x) hx.mem with ⟨_, b⟩ | ⟨ent', info', a, b, c, d⟩
              · rw [b] at hf; cases hf
              · rw [b] at hf; cases hf
                rw [a] at hent; cases hent
                have hzs := toPath_ints hp h3
                subst hzs
                refine ⟨info, rfl, c, d, ?_, ?_⟩
                · rw [c.dims] at hw
                  rw [h5, c.size, wsum_off _ _ c.pos hw]
                  congr 1
                  push_cast
                  ring
                · have := accSize_spec _ _ _ _ c.size c.pos ha
                  rw [this, ← h4]
                  simp

theorem trE_var {tags : List Name → Option Nat} {env : TEnv} {sig : Bool} {x : Name} {idx : Expr} {C : List Nat} :
    trE tags env (.var sig x idx) C =
      match symbol tags env x idx C with
      | none => none
      | some (loc, size, C') => some (.load sig loc size, C') := by
  simp only [trE, symbol]
  cases find x env with
  | none => rfl
  | some info =>
    cases trE tags env idx C with
    | none => rfl
    | some r =>
      obtain ⟨ix, C'⟩ := r
      simp only
      cases accSize info.size info.dims ix.list with
      | none => rfl
      | some s =>
        cases fullAddress C' info ix.list <;> rfl

theorem doComp2_infix {S : Sem K} (op : Infix) (a b : K) :
    doComp2 S (trInfix op) (.fld [a]) (.fld [b]) = (S.inf op a b).map fun k => .fld [k] := by
  cases op <;> simp only [trInfix, doComp2, frInfix]
  cases S.inf .eq a b with
  | none => rfl
  | some r => simp [eqLoop]

theorem doComp1_prefix {S : Sem K} (op : Prefix) (a : K) :
    doComp1 S (trPrefix op) (.fld [a]) = (S.pre op a).map fun k => .fld [k] := by
  cases op <;> simp only [trPrefix, doComp1, frPrefix]

theorem trE_prefix {tags : List Name → Option Nat} {env : TEnv} (e : Expr) : ∀ {C : List Nat} {i : I} {C' : List Nat},
    trE tags env e C = some (i, C') → C <+: C' := by
  induction e with
  | num n =>
    intro C i C' h
    simp only [trE, Option.some.injEq, Prod.mk.injEq] at h
    rw [← h.2]; exact (intern_spec C n).1
  | tag x fs =>
    intro C i C' h
    simp only [trE] at h
    split at h
    · simp only [Option.some.injEq, Prod.mk.injEq] at h
      rw [← h.2]; exact (intern_spec C _).1
    · cases h
  | var sig x idx ih =>
    intro C i C' h
    simp only [trE] at h
    split at h
    · rename_i info ix C1 _ ht
      split at h
      · simp only [Option.some.injEq, Prod.mk.injEq] at h
        rw [← h.2]; exact ih ht
      · cases h
    · cases h
  | inf op l r ihl ihr =>
    intro C i C' h
    simp only [trE] at h
    split at h
    · cases h
    · rename_i l' C1 hl
      split at h
      · cases h
      · rename_i r' C2 hr
        simp only [Option.some.injEq, Prod.mk.injEq] at h
        rw [← h.2]; exact (ihl hl).trans (ihr hr)
  | pre op e ih =>
    intro C i C' h
    simp only [trE] at h
    split at h
    · cases h
    · rename_i l' C1 hl
      simp only [Option.some.injEq, Prod.mk.injEq] at h
      rw [← h.2]; exact ih hl
  | call f args ih =>
    intro C i C' h
    simp only [trE] at h
    split at h
    · cases h
    · rename_i l' C1 hl
      simp only [Option.some.injEq, Prod.mk.injEq] at h
      rw [← h.2]; exact ih hl
  | nil =>
    intro C i C' h
    simp only [trE, Option.some.injEq, Prod.mk.injEq] at h
    rw [← h.2]; exact List.prefix_refl _
  | cons d e rest ihe ihr =>
    intro C i C' h
    simp only [trE] at h
    split at h
    · cases h
    · rename_i l' C1 hl
      split at h
      · cases h
      · rename_i r' C2 hr
        simp only [Option.some.injEq, Prod.mk.injEq] at h
        rw [← h.2]; exact (ihe hl).trans (ihr hr)
  | icons e rest ihe ihr =>
    intro C i C' h
    simp only [trE] at h
    split at h
    · cases h
    · rename_i l' C1 hl
      split at h
      · cases h
      · rename_i r' C2 hr
        simp only [Option.some.injEq, Prod.mk.injEq] at h
        rw [← h.2]; exact (ihe hl).trans (ihr hr)

theorem takeN_all {ks : List K} {n : Nat} (h : ks.length = n) : takeN n ks = some ks := by
  unfold takeN
  rw [if_pos (by omega), List.take_of_length_le (by omega)]

theorem copied_pos {n : Nat} (h : 0 < n) : copied n = n := by
  unfold copied
  by_cases h1 : n > 1
  · rw [if_pos h1]
  · rw [if_neg h1]; omega

/-- A constant. -/
theorem const_good {S : Sem K} (L : Laws S) {cfg : Cfg} {IF : IFns K} {m : Mem K} {C C' : List Nat} {n cid : Nat}
    (h : C'[cid]? = some n) (hC : C' <+: cfg.consts) :
    (∀ ix, Sim RV (result S ix (scalar (S.lit n)) []) (ev S cfg IF m (.big cid))) ∧
    (∀ C1, C' <+: C1 → C1 <+: cfg.consts → ∀ j, convert C1 (.big cid) = some j →
      Sim (RX S) (result S true (scalar (S.lit n)) []) (ev S cfg IF m j)) := by
  constructor
  · intro ix
    simp only [ev, prefix_get hC h]
    exact sim_result ⟨_, rfl, one_repL (rep_scalar _)⟩
  · intro C1 h1 h2 j hj
    simp only [convert, prefix_get h1 h] at hj
    by_cases hn : n < 2 ^ 64
    · rw [if_pos hn] at hj
      cases hj
      apply sim_result_ix
      intro k z hk hz
      have hk' : k = S.lit n := by simpa [scalar, Val.num] using hk.symm
      subst hk'
      have := L.lit n z hn hz
      subst this
      exact ⟨_, rfl, _, _, _, rfl, hk, hz, rfl⟩
    · rw [if_neg hn] at hj; cases hj

theorem trE_sim {S : Sem K} {tags : List Name → Option Nat} {rd : Name → Option (List Nat)} {cfg : Cfg} {F : Fns K} {IF : IFns K}
    {m : Mem K} {E : Frames K} {env : TEnv} (hx : Ctx S rd cfg F IF m E env) (e : Expr) (hok : e.ok rd = true)
    (hF : ∀ f ∈ e.calls, FSim rd F IF f 200) : ∀ {C : List Nat} {i : I} {C' : List Nat},
    trE tags env e C = some (i, C') → C' <+: cfg.consts → Good S tags cfg F IF m E e i C' := by
  induction e with
  | num n =>
    intro C i C' h hC
    simp only [trE, Option.some.injEq, Prod.mk.injEq] at h
    obtain ⟨rfl, rfl⟩ := h
    have := const_good hx.laws (IF := IF) (m := m) (C := C) (intern_spec C n).2 hC
    exact ⟨fun _ => this.1, fun _ => this.2, fun h => by simp [Expr.isIdx] at h⟩
  | tag x fs =>
    intro C i C' h hC
    simp only [trE] at h
    cases hf : find x env with
    | none => simp [hf] at h
    | some info =>
      cases ht : tags (x :: fs) with
      | none => simp [hf, ht] at h
      | some n =>
        simp only [hf, ht, Option.some.injEq, Prod.mk.injEq] at h
        obtain ⟨rfl, rfl⟩ := h
        have := const_good hx.laws (IF := IF) (m := m) (C := C) (intern_spec C n).2 hC
        refine ⟨fun _ ix => ?_, fun _ C1 h1 h2 j hj => ?_, fun h => by simp [Expr.isIdx] at h⟩
        · simp only [eval, ht]; exact this.1 ix
        · simp only [eval, ht]; exact this.2 C1 h1 h2 j hj
  | var sig x idx ih =>
    intro C i C' h hC
    simp only [Expr.ok, Bool.and_eq_true] at hok
    simp only [Expr.calls] at hF
    rw [trE_var] at h
    cases hs : symbol tags env x idx C with
    | none => simp [hs] at h
    | some r =>
      obtain ⟨loc, size, C1⟩ := r
      simp only [hs, Option.some.injEq, Prod.mk.injEq] at h
      obtain ⟨rfl, rfl⟩ := h
      have hsym := symbol_sim hx hok.1 (fun i C' => ih hok.2 hF) hs hC
      have hval : ∀ ix, Sim RV (eval S tags F E (.var sig x idx) ix) (ev S cfg IF m (.load sig loc size)) := by
        intro ix
        rcases hsym.cases with h1 | ⟨er, hne, h1, h2⟩ | ⟨vs, w, evs, h1, h2, _, h3⟩
        · simp only [eval, h1]; exact sim_stuck
        · simp only [eval, ev, h1, h2]; exact sim_err er
        · simp only [eval, h1]
          cases hf : find x E with
          | none => exact sim_stuck
          | some ent =>
            cases hp : toPath S vs with
            | none => exact sim_stuck
            | some p =>
              simp only
              by_cases hc : ent.sig = sig ∧ within ent.val.dims p = true
              · rw [if_pos hc]
                obtain ⟨info, _, hcell, hmem, hw, hsz⟩ := h3 ent p hf hp hc.2
                subst hw
                obtain ⟨ks, hr, hrep⟩ := read_rep (cfg := cfg) hcell hc.2 (hx.bound _ hmem)
                simp only [ev, h2, hsz, ← hc.1, hcell.sig, hr]
                exact sim_result ⟨ks, rfl, one_repL hrep⟩
              · rw [if_neg hc]; exact sim_stuck
      refine ⟨fun _ => hval, fun hv C1 h1 h2 j hj => ?_, fun h => by simp [Expr.isIdx] at h⟩
      simp only [convert, Option.some.injEq] at hj
      subst hj
      exact to_address hv (hval true)
  | inf op l r ihl ihr =>
    intro C i C' h hC
    simp only [Expr.ok, Bool.and_eq_true] at hok
    obtain ⟨⟨⟨hlv, hl⟩, hrv⟩, hr⟩ := hok
    simp only [Expr.calls, List.mem_append] at hF
    simp only [trE] at h
    cases htl : trE tags env l C with
    | none => simp [htl] at h
    | some a =>
      obtain ⟨l', C1⟩ := a
      cases htr : trE tags env r C1 with
      | none => simp [htl, htr] at h
      | some b =>
        obtain ⟨r', C2⟩ := b
        simp only [htl, htr, Option.some.injEq, Prod.mk.injEq] at h
        obtain ⟨rfl, rfl⟩ := h
        have gl := ihl hl (fun f hf => hF f (Or.inl hf)) htl ((trE_prefix r htr).trans hC)
        have gr := ihr hr (fun f hf => hF f (Or.inr hf)) htr hC
        refine ⟨fun _ ix => ?_, fun _ C3 h1 h2 j hj => ?_, fun h => by simp [Expr.isIdx] at h⟩
        · have sl := gl.val (by simp [hlv]) (ix && (op = .add || op = .mul))
          have sr := gr.val (by simp [hrv]) (ix && (op = .add || op = .mul))
          rcases sl.cases with a1 | ⟨er, hne, a1, a2⟩ | ⟨vs, w, evs, a1, a2, ks, rfl, a3⟩
          · simp only [eval, a1]; exact sim_stuck
          · simp only [eval, ev, a1, a2]; exact sim_err er
          · rcases sr.cases with b1 | ⟨er, hne, b1, b2⟩ | ⟨vs', w, evs', b1, b2, ls, rfl, b3⟩
            · simp only [eval, a1, b1]; exact sim_stuck
            · simp only [eval, ev, a1, a2, b1, b2]; exact sim_err er
            · simp only [eval, ev, a1, a2, b1, b2]
              split
              · rename_i v w
                split
                · rename_i a b hva hwb
                  have e1 := rep_num (repL_one a3) hva
                  have e2 := rep_num (repL_one b3) hwb
                  subst e1 e2
                  rw [doComp2_infix]
                  cases S.inf op a b with
                  | none => exact sim_stuck
                  | some c => exact sim_result ⟨_, rfl, one_repL (rep_scalar _)⟩
                · exact sim_stuck
              · exact sim_stuck
        · have key : ∀ (o : Oper) (z : Int → Int → Int), (op = .add ∨ op = .mul) → (∀ x y, doComp2 S o (.int x) (.int y) = some (.int (z x y))) →
              (∀ a b c x y w, S.inf op a b = some c → S.toInt a = some x → S.toInt b = some y → S.toInt c = some w → w = z x y) →
              (∃ ja jb, convert C3 l' = some ja ∧ convert C3 r' = some jb ∧ j = .comp2 o ja jb) →
              Sim (RX S) (eval S tags F E (.inf op l r) true) (ev S cfg IF m j) := by
            rintro o z hop hdo hlaw ⟨ja, jb, hja, hjb, rfl⟩
            have sl := gl.conv hlv C3 ((trE_prefix r htr).trans h1) h2 ja hja
            have sr := gr.conv hrv C3 h1 h2 jb hjb
            have hdec : (true && (decide (op = .add) || decide (op = .mul))) = true := by
              rcases hop with rfl | rfl <;> rfl
            rcases sl.cases with a1 | ⟨er, hne, a1, a2⟩ | ⟨vs, w, evs, a1, a2, v, k, x, rfl, hk, hkx, rfl⟩
            · simp only [eval, hdec, a1]; exact sim_stuck
            · simp only [eval, ev, hdec, a1, a2]; exact sim_err er
            · rcases sr.cases with b1 | ⟨er, hne, b1, b2⟩ | ⟨vs', w, evs', b1, b2, v', k', y, rfl, hk', hky, rfl⟩
              · simp only [eval, hdec, a1, b1]; exact sim_stuck
              · simp only [eval, ev, hdec, a1, a2, b1, b2]; exact sim_err er
              · simp only [eval, ev, hdec, a1, a2, b1, b2, hk, hk', hdo]
                cases hinf : S.inf op k k' with
                | none => exact sim_stuck
                | some c =>
                  apply sim_result_ix
                  intro q w hq hw
                  have hq' : q = c := by simpa [scalar, Val.num] using hq.symm
                  subst hq'
                  have := hlaw _ _ _ _ _ _ hinf hkx hky hw
                  subst this
                  exact ⟨_, rfl, _, _, _, rfl, hq, hw, rfl⟩
          cases op <;> simp only [trInfix, convert] at hj <;> try (cases hj)
          · split at hj
            · rename_i ja jb hja hjb
              exact key .mulAddress (· * ·) (Or.inr rfl) (fun _ _ => rfl) hx.laws.mul ⟨ja, jb, hja, hjb, (Option.some.inj hj).symm⟩
            · cases hj
          · split at hj
            · rename_i ja jb hja hjb
              exact key .addAddress (· + ·) (Or.inl rfl) (fun _ _ => rfl) hx.laws.add ⟨ja, jb, hja, hjb, (Option.some.inj hj).symm⟩
            · cases hj
  | pre op e ih =>
    intro C i C' h hC
    simp only [Expr.ok, Bool.and_eq_true] at hok
    simp only [Expr.calls] at hF
    simp only [trE] at h
    cases ht : trE tags env e C with
    | none => simp [ht] at h
    | some a =>
      obtain ⟨e', C1⟩ := a
      simp only [ht, Option.some.injEq, Prod.mk.injEq] at h
      obtain ⟨rfl, rfl⟩ := h
      have g := ih hok.2 hF ht hC
      refine ⟨fun _ ix => ?_, fun _ C3 h1 h2 j hj => by cases op <;> simp [trPrefix, convert] at hj, fun h => by simp [Expr.isIdx] at h⟩
      have sl := g.val (by simp [hok.1]) false
      rcases sl.cases with a1 | ⟨er, hne, a1, a2⟩ | ⟨vs, w, evs, a1, a2, ks, rfl, a3⟩
      · simp only [eval, a1]; exact sim_stuck
      · simp only [eval, ev, a1, a2]; exact sim_err er
      · simp only [eval, ev, a1, a2]
        split
        · rename_i er heq; cases heq
        · rename_i v evs' heq
          simp only [Except.ok.injEq, Prod.mk.injEq] at heq
          obtain ⟨rfl, rfl⟩ := heq
          cases hv : v.num with
          | none => exact sim_stuck
          | some a =>
            have e1 := rep_num (repL_one a3) hv
            subst e1
            simp only [doComp1_prefix]
            cases S.pre op a with
            | none => exact sim_stuck
            | some c => exact sim_result ⟨_, rfl, one_repL (rep_scalar _)⟩
        · exact sim_stuck
  | call f args ih =>
    intro C i C' h hC
    simp only [Expr.ok, Bool.and_eq_true, decide_eq_true_eq] at hok
    simp only [Expr.calls, List.mem_cons] at hF
    simp only [trE] at h
    cases ht : trE tags env args C with
    | none => simp [ht] at h
    | some a =>
      obtain ⟨e', C1⟩ := a
      simp only [ht, Option.some.injEq, Prod.mk.injEq] at h
      obtain ⟨rfl, rfl⟩ := h
      have g := ih hok.2 (fun f hf => hF f (Or.inr hf)) ht hC
      have hval : ∀ ix, Sim RV (eval S tags F E (.call f args) ix) (ev S cfg IF m (.call f e' 200)) := by
        intro ix
        have sl := g.val (by simp [hok.1.2]) false
        rcases sl.cases with a1 | ⟨er, hne, a1, a2⟩ | ⟨vs, w, evs, a1, a2, ks, rfl, a3⟩
        · simp only [eval, a1]; exact sim_stuck
        · simp only [eval, ev, a1, a2]; exact sim_err er
        · rcases (hF f (Or.inl rfl) vs ks a3).cases with b1 | ⟨er, hne, b1, b2⟩ | ⟨v, r, evs', b1, b2, hd, hr1, hr2⟩
          · simp only [eval, a1, b1]; exact sim_stuck
          · simp only [eval, ev, a1, a2, b1, b2]; exact sim_err er
          · obtain ⟨w, rs⟩ := r
            have hdim : v.dims = [] := by
              have := hd.symm.trans hok.1.1
              simpa using this
            have hlen : rs.length = 1 := by have := hr2.len; rw [hdim] at this; simpa [prod] using this
            simp only [eval, ev, a1, a2, b1, b2, takeN_all hlen]
            exact sim_result ⟨_, rfl, one_repL hr2⟩
      refine ⟨fun _ => hval, fun hv C1 h1 h2 j hj => ?_, fun h => by simp [Expr.isIdx] at h⟩
      simp only [convert, Option.some.injEq] at hj
      subst hj
      exact to_address hv (hval true)
  | nil =>
    intro C i C' h hC
    simp only [trE, Option.some.injEq, Prod.mk.injEq] at h
    obtain ⟨rfl, rfl⟩ := h
    refine ⟨fun _ ix => ?_, fun h => by simp [Expr.isVal] at h, fun _ C1 h1 h2 len dims js hj => ?_⟩
    · simp only [eval, ev]
      exact sim_ok ⟨[], rfl, .nil⟩
    · simp only [I.list, jumps, Option.some.injEq] at hj
      subst hj
      simp only [eval, evSum]
      exact sim_ok ⟨[], rfl, rfl, by cases dims <;> rfl⟩
  | cons d e rest ihe ihr =>
    intro C i C' h hC
    simp only [Expr.ok, Bool.and_eq_true] at hok
    obtain ⟨⟨⟨hlv, hl⟩, hrv⟩, hr⟩ := hok
    simp only [Expr.calls, List.mem_append] at hF
    simp only [trE] at h
    cases htl : trE tags env e C with
    | none => simp [htl] at h
    | some a =>
      obtain ⟨l', C1⟩ := a
      cases htr : trE tags env rest C1 with
      | none => simp [htl, htr] at h
      | some b =>
        obtain ⟨r', C2⟩ := b
        simp only [htl, htr, Option.some.injEq, Prod.mk.injEq] at h
        obtain ⟨rfl, rfl⟩ := h
        have gl := ihe hl (fun f hf => hF f (Or.inl hf)) htl ((trE_prefix rest htr).trans hC)
        have gr := ihr hr (fun f hf => hF f (Or.inr hf)) htr hC
        refine ⟨fun _ ix => ?_, fun h => by simp [Expr.isVal] at h, fun h => by simp [Expr.isIdx] at h⟩
        have sl := gl.val (by simp [hlv]) false
        have sr := gr.val (by simp [hrv]) false
        rcases sl.cases with a1 | ⟨er, hne, a1, a2⟩ | ⟨vs, w, evs, a1, a2, ks, rfl, a3⟩
        · simp only [eval, a1]; exact sim_stuck
        · simp only [eval, ev, a1, a2]; exact sim_err er
        · simp only [eval, a1]
          split
          · rename_i er heq; cases heq
          · rename_i v evs' heq
            simp only [Except.ok.injEq, Prod.mk.injEq] at heq
            obtain ⟨rfl, rfl⟩ := heq
            by_cases hd : v.dims = d
            · rw [if_pos hd]
              have hrep := repL_one a3
              have hpos : 0 < prod d := by rw [← hd]; exact prod_pos hrep.pos
              have hlen : ks.length = prod d := by rw [← hd]; exact hrep.len
              have hsz : copied (d.foldl (· * ·) 1) = prod d := by rw [foldl_prod, copied_pos hpos]
              have hne0 : d.foldl (· * ·) 1 ≠ 0 := by rw [foldl_prod]; omega
              rcases sr.cases with b1 | ⟨er, hne, b1, b2⟩ | ⟨vs', w, evs', b1, b2, ls, rfl, b3⟩
              · simp only [b1]; exact sim_stuck
              · simp only [ev, a2, b1, b2, hsz, takeN_all hlen, hne0, if_false]; exact sim_err er
              · simp only [ev, a2, b1, b2, hsz, takeN_all hlen, hne0, if_false]
                exact sim_ok ⟨_, rfl, .cons hrep b3⟩
            · rw [if_neg hd]; exact sim_stuck
          · exact sim_stuck
  | icons e rest ihe ihr =>
    intro C i C' h hC
    simp only [Expr.ok, Bool.and_eq_true] at hok
    obtain ⟨⟨⟨hlv, hl⟩, hrv⟩, hr⟩ := hok
    simp only [Expr.calls, List.mem_append] at hF
    simp only [trE] at h
    cases htl : trE tags env e C with
    | none => simp [htl] at h
    | some a =>
      obtain ⟨l', C1⟩ := a
      cases htr : trE tags env rest C1 with
      | none => simp [htl, htr] at h
      | some b =>
        obtain ⟨r', C2⟩ := b
        simp only [htl, htr, Option.some.injEq, Prod.mk.injEq] at h
        obtain ⟨rfl, rfl⟩ := h
        have gl := ihe hl (fun f hf => hF f (Or.inl hf)) htl ((trE_prefix rest htr).trans hC)
        have gr := ihr hr (fun f hf => hF f (Or.inr hf)) htr hC
        refine ⟨fun h => by simp [Expr.isVal, Expr.isArgs] at h, fun h => by simp [Expr.isVal] at h, fun _ C3 h1 h2 len dims js hj => ?_⟩
        simp only [I.list] at hj
        cases dims with
        | nil => simp [jumps] at hj
        | cons d ds =>
          simp only [jumps] at hj
          by_cases hd : d = 0
          · simp [hd] at hj
          · rw [if_neg hd] at hj
            cases hfo : filterOne C3 l' with
            | none => simp [hfo] at hj
            | some l'' =>
              cases hjr : jumps C3 (len / d) ds r'.list with
              | none => simp [hfo, hjr] at hj
              | some js' =>
                simp only [hfo, hjr, Option.some.injEq] at hj
                subst hj
                have sl : Sim (RX S) (eval S tags F E e true) (ev S cfg IF m l'') := by
                  unfold filterOne at hfo
                  split at hfo
                  · cases hfo
                  · exact gl.conv hlv C3 ((trE_prefix rest htr).trans h1) h2 _ hfo
                  · cases hfo
                    exact to_address hlv (gl.val (by simp [hlv]) true)
                have sr := gr.idx hrv C3 h1 h2 _ _ _ hjr
                rcases sl.cases with a1 | ⟨er, hne, a1, a2⟩ | ⟨vs, w, evs, a1, a2, v, k, x, rfl, hk, hkx, rfl⟩
                · simp only [eval, a1]; exact sim_stuck
                · simp only [eval, evSum, ev, a1, a2]; exact sim_err er
                · rcases sr.cases with b1 | ⟨er, hne, b1, b2⟩ | ⟨vs', w, evs', b1, b2, zs, b3, b4, b5⟩
                  · simp only [eval, a1, b1]; exact sim_stuck
                  · simp only [eval, evSum, ev, a1, a2, b1, b2, doComp2]; exact sim_err er
                  · simp only [eval, evSum, ev, a1, a2, b1, b2, doComp2, List.nil_append]
                    refine sim_ok ⟨x :: zs, ?_, ?_, ?_⟩
                    · simp only [toInts, hk, hkx, b3, Option.map_some]
                    · simp [I.list, b4]
                    · simp only [wsum, b5]

end Verif.Ir
