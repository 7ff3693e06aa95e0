import Verif.IrPass

/-!
# Simulation of statements
-/

set_option linter.unusedSimpArgs false
set_option linter.unusedVariables false

namespace Verif.Ir

variable {K : Type}

/-! ## Layout of the variables -/

/-- Names have their own cells. -/
structure Lay (sigs : Nat) (t : TSt) : Prop where
  pw : (entries t.env).Pairwise Disj
  var : ∀ i ∈ entries t.env, i.sig = false → i.addr + i.size ≤ t.stack
  sg : ∀ i ∈ entries t.env, i.sig = true → i.addr + i.size ≤ sigs
  dep : t.stack ≤ t.depth
  ne : t.env ≠ []

theorem entries_declare {x : Name} {i : Info} {env : TEnv} (h : env ≠ []) : entries (declare x i env) = i :: entries env := by
  cases env with
  | nil => exact absurd rfl h
  | cons f fs => simp [declare, entries]

theorem declare_ne {α : Type} {x : Name} {i : α} {env : List (List (Name × α))} (h : env ≠ []) : declare x i env ≠ [] := by
  cases env with
  | nil => exact absurd rfl h
  | cons f fs => simp [declare]

theorem declare_tail {α : Type} {x : Name} {i : α} {env : List (List (Name × α))} : (declare x i env).tail = env.tail := by
  cases env <;> rfl

/-- A new variable. -/
theorem Lay.decl {sigs : Nat} {t : TSt} (h : Lay sigs t) (x : Name) (d : List Nat) (n : Nat) (C : List Nat) :
    Lay sigs { t with env := declare x ⟨t.stack, d, n, false⟩ t.env, stack := t.stack + n, depth := max t.depth (t.stack + n), consts := C } := by
  refine ⟨?_, ?_, ?_, ?_, declare_ne h.ne⟩
  · rw [entries_declare h.ne, List.pairwise_cons]
    refine ⟨fun i hi e => ?_, h.pw⟩
    right
    exact h.var i hi e.symm
  · rw [entries_declare h.ne]
    intro i hi hs
    rw [List.mem_cons] at hi
    rcases hi with rfl | hi
    · exact Nat.le_refl _
    · have := h.var i hi hs
      simp only
      omega
  · rw [entries_declare h.ne]
    intro i hi hs
    rw [List.mem_cons] at hi
    rcases hi with rfl | hi
    · cases hs
    · exact h.sg i hi hs
  · simp only; omega

theorem Lay.consts {sigs : Nat} {t : TSt} (h : Lay sigs t) (C : List Nat) : Lay sigs { t with consts := C } :=
  ⟨h.pw, h.var, h.sg, h.dep, h.ne⟩

theorem Lay.push {sigs : Nat} {t : TSt} (h : Lay sigs t) : Lay sigs { t with env := [] :: t.env } :=
  ⟨by simpa [entries] using h.pw, by simpa [entries] using h.var, by simpa [entries] using h.sg, h.dep, by simp⟩

/-! ## What translation leaves as it is -/

theorem symbol_prefix {tags : List Name → Option Nat} {env : TEnv} {x : Name} {idx : Expr} {C : List Nat} {loc : I} {size : Nat}
    {C' : List Nat} (h : symbol tags env x idx C = some (loc, size, C')) : C <+: C' := by
  have : trE tags env (.var false x idx) C = some (.load false loc size, C') := by rw [trE_var, h]
  exact trE_prefix _ this

theorem exprSize_prefix {tags : List Name → Option Nat} {env : TEnv} {e : Expr} {C : List Nat} {size : Nat}
    {C' : List Nat} (h : exprSize tags env e C = some (size, C')) : C <+: C' := by
  cases e <;> simp only [exprSize] at h
  case var sig x idx =>
    split at h
    · rename_i hs; cases h; exact symbol_prefix hs
    · cases h
  case tag =>
    split at h
    · cases h; exact List.prefix_refl _
    · cases h
  all_goals cases h
  all_goals exact List.prefix_refl _

theorem eqSize_prefix {tags : List Name → Option Nat} {env : TEnv} {e : Expr} {C : List Nat} {size : Nat}
    {C' : List Nat} (h : eqSize tags env e C = some (size, C')) : C <+: C' := by
  cases e <;> simp only [eqSize] at h
  case var sig x idx =>
    split at h
    · rename_i hs; cases h; exact symbol_prefix hs
    · cases h
  all_goals cases h
  all_goals exact List.prefix_refl _

theorem trLog_prefix {tags : List Name → Option Nat} {env : TEnv} : ∀ {l : List LogArg} {C : List Nat} {T : List String}
    {is : List LogI} {C' : List Nat} {T' : List String}, trLog tags env l C T = some (is, C', T') → C <+: C' ∧ T <+: T'
  | [], C, T, is, C', T', h => by
    simp only [trLog, Option.some.injEq, Prod.mk.injEq] at h
    obtain ⟨_, rfl, rfl⟩ := h
    exact ⟨List.prefix_refl _, List.prefix_refl _⟩
  | .str s :: r, C, T, is, C', T', h => by
    simp only [trLog] at h
    split at h
    · cases h
    · rename_i hr
      cases h
      have := trLog_prefix hr
      exact ⟨this.1, (intern_spec T s).1.trans this.2⟩
  | .exp e :: r, C, T, is, C', T', h => by
    simp only [trLog] at h
    split at h
    · cases h
    · rename_i he
      split at h
      · cases h
      · rename_i hr
        cases h
        have := trLog_prefix hr
        exact ⟨(trE_prefix _ he).trans this.1, this.2⟩

/-- Translation of assignments of expressions. -/
theorem trS_assign {tags : List Name → Option Nat} {sig : Bool} {x : Name} {idx e : Expr} {t : TSt}
    (h : ∀ f args, e ≠ .call f args) : trS tags (.assign sig x idx e) t =
    match symbol tags t.env x idx t.consts with
    | none => none
    | some (loc, size, C) =>
      match exprSize tags t.env e C with
      | none => none
      | some (ssize, C1) =>
        match trE tags t.env e C1 with
        | none => none
        | some (src, C2) => some (.cons (.store sig loc src size ssize) .nil, { t with consts := C2 }) := by
  cases e <;> first | rfl | exact absurd rfl (h _ _)

theorem exec_assign {S : Sem K} {tags : List Name → Option Nat} {chk : Bool} {F : Fns K} {n : Nat} {sig : Bool} {x : Name}
    {idx e : Expr} {E : Frames K} (h : ∀ f args, e ≠ .call f args) : exec S tags chk F n (.assign sig x idx e) E =
    match eval S tags F E idx false with
    | .error e => .error e
    | .ok (is, evs) =>
      match eval1 S tags F E e with
      | .error e => .error e
      | .ok (v, evs') =>
        match toPath S is with
        | none => .error .stuck
        | some p =>
          match assignTo sig x p v E with
          | .error e => .error e
          | .ok E' => .ok (E', evs ++ evs', none) := by
  cases e <;> first | rfl | exact absurd rfl (h _ _)

theorem ok_assign {rd : Name → Option (List Nat)} {sig : Bool} {x : Name} {idx e : Expr} (h : ∀ f args, e ≠ .call f args) :
    Stmt.ok rd (.assign sig x idx e) = (idx.isIdx && idx.ok rd && e.isVal && e.ok rd) := by
  cases e <;> first | rfl | exact absurd rfl (h _ _)

/-- What one statement may change in the state. -/
structure Stat (s : Stmt) (t t' : TSt) : Prop where
  consts : t.consts <+: t'.consts
  strings : t.strings <+: t'.strings
  depth : t.depth ≤ t'.depth
  tail : t'.env.tail = t.env.tail
  closed : s.closed = true → t'.env = t.env ∧ t'.stack = t.stack
  lay : ∀ sigs, Lay sigs t → Lay sigs t'

theorem stat_consts {s : Stmt} {t : TSt} {C : List Nat} (h : t.consts <+: C) : Stat s t { t with consts := C } :=
  ⟨h, List.prefix_refl _, Nat.le_refl _, rfl, fun _ => ⟨rfl, rfl⟩, fun _ h => h.consts C⟩

theorem trS_stat {tags : List Name → Option Nat} (s : Stmt) : ∀ {t : TSt} {code : IS} {t' : TSt},
    trS tags s t = some (code, t') → Stat s t t' := by
  induction s with
  | decl x d =>
    intro t code t' h
    simp only [trS, Option.some.injEq, Prod.mk.injEq] at h
    obtain ⟨_, rfl⟩ := h
    exact ⟨List.prefix_refl _, List.prefix_refl _, by simp only; omega, declare_tail, fun h => by simp [Stmt.closed] at h,
      fun sigs hl => hl.decl x d _ _⟩
  | assign sig x idx e =>
    intro t code t' h
    by_cases hc : ∃ f args, e = .call f args
    · obtain ⟨f, args, rfl⟩ := hc
      simp only [trS] at h
      split at h
      · cases h
      · rename_i hs
        split at h
        · cases h
        · rename_i he
          cases h
          exact stat_consts ((symbol_prefix hs).trans (trE_prefix _ he))
    · rw [trS_assign (fun f args he => hc ⟨f, args, he⟩)] at h
      split at h
      · cases h
      · rename_i hs
        split at h
        · cases h
        · rename_i hz
          split at h
          · cases h
          · rename_i he
            cases h
            exact stat_consts ((symbol_prefix hs).trans ((exprSize_prefix hz).trans (trE_prefix _ he)))
  | eqc l r =>
    intro t code t' h
    simp only [trS] at h
    split at h
    · cases h
    · rename_i hs
      split at h
      · cases h
      · rename_i hz
        split at h
        · cases h
        · rename_i he
          cases h
          exact stat_consts ((eqSize_prefix hs).trans ((trE_prefix _ hz).trans (trE_prefix _ he)))
  | assert e =>
    intro t code t' h
    simp only [trS] at h
    split at h
    · cases h
    · rename_i he
      cases h
      exact stat_consts (trE_prefix _ he)
  | ret e =>
    intro t code t' h
    simp only [trS] at h
    split at h
    · cases h
    · rename_i hz
      split at h
      · cases h
      · rename_i he
        cases h
        exact stat_consts ((exprSize_prefix hz).trans (trE_prefix _ he))
  | log args =>
    intro t code t' h
    simp only [trS] at h
    split at h
    · cases h
    · rename_i he
      cases h
      have := trLog_prefix he
      exact ⟨this.1, this.2, Nat.le_refl _, rfl, fun _ => ⟨rfl, rfl⟩, fun _ h => ⟨h.pw, h.var, h.sg, h.dep, h.ne⟩⟩
  | ite c a b iha ihb =>
    intro t code t' h
    simp only [trS] at h
    split at h
    · cases h
    · rename_i he
      split at h
      · cases h
      · rename_i ha
        split at h
        · cases h
        · rename_i hb
          cases h
          have h1 := trE_prefix _ he
          have h2 := iha ha
          have h3 := ihb hb
          refine ⟨h1.trans (h2.consts.trans h3.consts), h2.strings.trans h3.strings, h2.depth.trans h3.depth, h3.tail.trans h2.tail,
            ?_, fun sigs hl => h3.lay sigs (h2.lay sigs (hl.consts _))⟩
          intro hc
          simp only [Stmt.closed, Bool.and_eq_true] at hc
          exact ⟨(h3.closed hc.2).1.trans (h2.closed hc.1).1, (h3.closed hc.2).2.trans (h2.closed hc.1).2⟩
  | loop c s ih =>
    intro t code t' h
    simp only [trS] at h
    split at h
    · cases h
    · rename_i he
      split at h
      · cases h
      · rename_i ha
        cases h
        have h1 := trE_prefix _ he
        have h2 := ih ha
        refine ⟨h1.trans h2.consts, h2.strings, h2.depth, h2.tail,
          ?_, fun sigs hl => h2.lay sigs (hl.consts _)⟩
        intro hc
        simp only [Stmt.closed] at hc
        exact h2.closed hc
  | block ss ih =>
    intro t code t' h
    simp only [trS] at h
    split at h
    · cases h
    · rename_i ha
      cases h
      have h2 := ih ha
      have ht : _ = _ := h2.tail
      simp only [List.tail_cons] at ht
      refine ⟨h2.consts, h2.strings, h2.depth, by simp only [ht], fun _ => ⟨ht, rfl⟩, fun sigs hl => ?_⟩
      have hd := h2.depth
      simp only at hd
      have := hl.dep
      refine ⟨by simp only [ht]; exact hl.pw, by simp only [ht]; exact hl.var, by simp only [ht]; exact hl.sg, by simp only; omega,
        by simp only [ht]; exact hl.ne⟩
  | nil =>
    intro t code t' h
    simp only [trS, Option.some.injEq, Prod.mk.injEq] at h
    obtain ⟨_, rfl⟩ := h
    exact ⟨List.prefix_refl _, List.prefix_refl _, Nat.le_refl _, rfl, fun _ => ⟨rfl, rfl⟩, fun _ h => h⟩
  | cons s ss ih1 ih2 =>
    intro t code t' h
    simp only [trS] at h
    split at h
    · cases h
    · rename_i ha
      split at h
      · cases h
      · rename_i hb
        cases h
        have h2 := ih1 ha
        have h3 := ih2 hb
        refine ⟨h2.consts.trans h3.consts, h2.strings.trans h3.strings, h2.depth.trans h3.depth, h3.tail.trans h2.tail,
            ?_, fun sigs hl => h3.lay sigs (h2.lay sigs hl)⟩
        intro hc
        simp only [Stmt.closed, Bool.and_eq_true] at hc
        exact ⟨(h3.closed hc.2).1.trans (h2.closed hc.1).1, (h3.closed hc.2).2.trans (h2.closed hc.1).2⟩

/-! ## Execution -/

/-- As `Sim`, for statements. -/
def SimS {σ τ ρ ρ' : Type} (R : σ → τ → Prop) (Q : ρ → ρ' → Prop) : Step σ ρ K → Step τ ρ' K → Prop
  | .error .stuck, _ => True
  | .error e, r => r = .error e
  | .ok (a, evs, none), r => ∃ b, r = .ok (b, evs, none) ∧ R a b
  | .ok (_, evs, some v), r => ∃ b w, r = .ok (b, evs, some w) ∧ Q v w

theorem SimS.cases {σ τ ρ ρ' : Type} {R : σ → τ → Prop} {Q : ρ → ρ' → Prop} {a : Step σ ρ K} {b : Step τ ρ' K} (h : SimS R Q a b) :
    a = .error .stuck ∨ (∃ e, e ≠ .stuck ∧ a = .error e ∧ b = .error e) ∨
      (∃ x y evs, a = .ok (x, evs, none) ∧ b = .ok (y, evs, none) ∧ R x y) ∨
      ∃ x y evs v w, a = .ok (x, evs, some v) ∧ b = .ok (y, evs, some w) ∧ Q v w := by
  rcases a with (_ | _ | _) | ⟨x, evs, _ | v⟩
  · exact Or.inr (Or.inl ⟨_, by simp, rfl, h⟩)
  · exact Or.inr (Or.inl ⟨_, by simp, rfl, h⟩)
  · exact Or.inl rfl
  · obtain ⟨y, h1, h2⟩ := h
    exact Or.inr (Or.inr (Or.inl ⟨x, y, evs, rfl, h1, h2⟩))
  · obtain ⟨y, w, h1, h2⟩ := h
    exact Or.inr (Or.inr (Or.inr ⟨x, y, evs, v, w, rfl, h1, h2⟩))

section
variable {σ τ ρ ρ' : Type} {R : σ → τ → Prop} {Q : ρ → ρ' → Prop}

theorem simS_stuck {b : Step τ ρ' K} : SimS R Q (.error .stuck) b := trivial

theorem simS_err (e : Err) : SimS (K := K) R Q (.error e) (.error e) := by
  cases e <;> simp [SimS]

theorem simS_ok {x : σ} {y : τ} {evs : List (Ev K)} (h : R x y) : SimS R Q (.ok (x, evs, none)) (.ok (y, evs, none)) :=
  ⟨y, rfl, h⟩

theorem simS_ret {x : σ} {y : τ} {evs : List (Ev K)} {v : ρ} {w : ρ'} (h : Q v w) :
    SimS R Q (.ok (x, evs, some v)) (.ok (y, evs, some w)) :=
  ⟨y, w, rfl, h⟩

/-- Loops. -/
theorem iter_sim {c : σ → Except Err (Bool × List (Ev K))} {c' : τ → Except Err (Bool × List (Ev K))}
    {body : σ → Step σ ρ K} {body' : τ → Step τ ρ' K} (hc : ∀ a b, R a b → Sim (· = ·) (c a) (c' b))
    (hb : ∀ a b, R a b → SimS R Q (body a) (body' b)) : ∀ k a b, R a b → SimS R Q (iter c body k a) (iter c' body' k b)
  | 0, a, b, h => simS_err _
  | k + 1, a, b, h => by
    rcases (hc a b h).cases with h1 | ⟨er, _, h1, h2⟩ | ⟨q, q', evs, h1, h2, rfl⟩
    · simp only [iter, h1]; exact simS_stuck
    · simp only [iter, h1, h2]; exact simS_err er
    · cases q with
      | false => simp only [iter, h1, h2]; exact simS_ok h
      | true =>
        rcases (hb a b h).cases with b1 | ⟨er, _, b1, b2⟩ | ⟨x, y, evs', b1, b2, hr⟩ | ⟨x, y, evs', v, w, b1, b2, hq⟩
        · simp only [iter, h1, b1]; exact simS_stuck
        · simp only [iter, h1, h2, b1, b2]; exact simS_err er
        · rcases (iter_sim hc hb k x y hr).cases with d1 | ⟨er, _, d1, d2⟩ | ⟨x', y', evs'', d1, d2, hr'⟩ | ⟨x', y', evs'', v, w, d1, d2, hq⟩
          · simp only [iter, h1, b1, d1]; exact simS_stuck
          · simp only [iter, h1, h2, b1, b2, d1, d2]; exact simS_err er
          · simp only [iter, h1, h2, b1, b2, d1, d2]; exact simS_ok hr'
          · simp only [iter, h1, h2, b1, b2, d1, d2]; exact simS_ret hq
        · simp only [iter, h1, h2, b1, b2]; exact simS_ret hq

end

section
variable {S : Sem K} {tags : List Name → Option Nat} {rd : Name → Option (List Nat)} {cfg : Cfg} {F : Fns K} {IF : IFns K}
    {m : Mem K} {E : Frames K} {env : TEnv}

theorem eval1_sim {e : Expr} {i : I} (h : Sim RV (eval S tags F E e false) (ev S cfg IF m i)) :
    Sim (fun v w => ∃ ks, w = .fld ks ∧ Rep v ks) (eval1 S tags F E e) (ev S cfg IF m i) := by
  rcases h.cases with h1 | ⟨er, _, h1, h2⟩ | ⟨vs, w, evs, h1, h2, ks, rfl, h3⟩
  · simp only [eval1, h1]; exact sim_stuck
  · simp only [eval1, h1, h2]; exact sim_err er
  · simp only [eval1, h1, h2]
    split
    · rename_i heq; cases heq
    · rename_i heq
      simp only [Except.ok.injEq, Prod.mk.injEq] at heq
      obtain ⟨rfl, rfl⟩ := heq
      exact sim_ok ⟨ks, rfl, repL_one h3⟩
    · exact sim_stuck

theorem evalK_sim {e : Expr} {i : I} (h : Sim RV (eval S tags F E e false) (ev S cfg IF m i)) :
    Sim (· = ·) (evalK S tags F E e) (evK S cfg IF m i) := by
  rcases (eval1_sim h).cases with h1 | ⟨er, _, h1, h2⟩ | ⟨v, w, evs, h1, h2, ks, rfl, h3⟩
  · simp only [evalK, h1]; exact sim_stuck
  · simp only [evalK, evK, h1, h2]; exact sim_err er
  · simp only [evalK, evK, h1, h2]
    cases hv : v.num with
    | none => exact sim_stuck
    | some k =>
      have := rep_num h3 hv
      subst this
      exact sim_ok rfl

theorem cond_sim {e : Expr} {i : I} (h : Sim RV (eval S tags F E e false) (ev S cfg IF m i)) :
    Sim (· = ·)
      (match evalK S tags F E e with
        | .error e => .error e
        | .ok (k, evs) => .ok (S.truthy k, evs))
      (match evK S cfg IF m i with
        | .error e => .error e
        | .ok (k, evs) => .ok (S.truthy k, evs)) := by
  rcases (evalK_sim h).cases with h1 | ⟨er, _, h1, h2⟩ | ⟨v, w, evs, h1, h2, rfl⟩
  · simp only [h1]; exact sim_stuck
  · simp only [h1, h2]; exact sim_err er
  · simp only [h1, h2]; exact sim_ok rfl

theorem eval_cases {e : Expr} {r : Except Err (Val K × List (Ev K))} (h : eval1 S tags F E e = r) {v : Val K} {evs : List (Ev K)}
    (hr : r = .ok (v, evs)) : eval S tags F E e false = .ok ([v], evs) := by
  subst hr
  unfold eval1 at h
  split at h
  · cases h
  · rename_i h1; cases h; exact h1
  · cases h

theorem result_val {ix : Bool} {v w : Val K} {evs evs' : List (Ev K)} (h : result S ix v evs = .ok ([w], evs')) : w = v := by
  unfold result at h
  cases ix with
  | false => simp at h; exact h.1.symm
  | true =>
    simp only [if_true] at h
    split at h
    · cases h
    · split at h
      · simp at h; exact h.1.symm
      · cases h

/-- The size of an expression is that of its value. -/
theorem size_var (hx : Ctx S rd cfg F IF m E env) {sig : Bool} {x : Name} {idx : Expr} (hok : Expr.ok rd (.var sig x idx) = true)
    (hF : ∀ f ∈ idx.calls, FSim rd F IF f 200) {C C' : List Nat} {loc : I} {size : Nat}
    (hs : symbol tags env x idx C = some (loc, size, C')) (hC : C' <+: cfg.consts) {v : Val K} {evs : List (Ev K)}
    (h : eval S tags F E (.var sig x idx) false = .ok ([v], evs)) : size = prod v.dims := by
  simp only [Expr.ok, Bool.and_eq_true] at hok
  have hsym := symbol_sim hx hok.1 (fun i C' => trE_sim hx idx hok.2 hF) hs hC
  rcases hsym.cases with h1 | ⟨er, hne, h1, h2⟩ | ⟨vs, w, evs', h1, h2, _, h3⟩
  · simp [eval, h1] at h
  · simp [eval, h1] at h
  · simp only [eval, h1] at h
    split at h
    · rename_i ent p he hp
      split at h
      · rename_i hc
        obtain ⟨info, _, hcell, _, _, hsz⟩ := h3 ent p he hp hc.2
        have := result_val h
        subst this
        rw [hsz]
        simp only [Val.sub, hcell.dims]
      · cases h
    · cases h

theorem scalar_inf {op : Infix} {l r : Expr} {v : Val K} {evs : List (Ev K)} (h : eval S tags F E (.inf op l r) false = .ok ([v], evs)) :
    v.dims = [] := by
  simp only [eval] at h
  split at h
  · cases h
  · split at h
    · cases h
    · split at h
      · split at h
        · split at h
          · cases h
          · have := result_val h; subst this; rfl
        · cases h
      · cases h

theorem scalar_pre {op : Prefix} {e : Expr} {v : Val K} {evs : List (Ev K)} (h : eval S tags F E (.pre op e) false = .ok ([v], evs)) :
    v.dims = [] := by
  simp only [eval] at h
  split at h
  · cases h
  · split at h
    · cases h
    · split at h
      · cases h
      · have := result_val h; subst this; rfl
  · cases h

theorem exprSize_spec (hx : Ctx S rd cfg F IF m E env) {e : Expr} (hok : e.ok rd = true) (hF : ∀ f ∈ e.calls, FSim rd F IF f 200)
    {C C' : List Nat} {size : Nat} (hs : exprSize tags env e C = some (size, C')) (hC : C' <+: cfg.consts) {v : Val K}
    {evs : List (Ev K)} (h : eval S tags F E e false = .ok ([v], evs)) : size = prod v.dims := by
  cases e with
  | var sig x idx =>
    simp only [exprSize] at hs
    split at hs
    · rename_i h1; cases hs; exact size_var hx hok hF h1 hC h
    · cases hs
  | inf op l r => cases hs; rw [scalar_inf h]; rfl
  | pre op e => cases hs; rw [scalar_pre h]; rfl
  | num n =>
    cases hs
    have := result_val (S := S) (ix := false) h
    subst this; rfl
  | tag x fs =>
    simp only [exprSize] at hs
    split at hs
    · cases hs
      simp only [eval] at h
      split at h
      · cases h
      · have := result_val h; subst this; rfl
    · cases hs
  | call f args => cases hs
  | nil => cases hs
  | cons d e rest => cases hs
  | icons e rest => cases hs

theorem eqSize_spec (hx : Ctx S rd cfg F IF m E env) {e : Expr} (hv : e.isVal = true) (hok : e.ok rd = true)
    (hF : ∀ f ∈ e.calls, FSim rd F IF f 200)
    {C C' : List Nat} {size : Nat} (hs : eqSize tags env e C = some (size, C')) (hC : C' <+: cfg.consts)
    {C1 C2 : List Nat} {i : I} (ht : trE tags env e C1 = some (i, C2)) (hC2 : C2 <+: cfg.consts) {v : Val K}
    {evs : List (Ev K)} (h : eval S tags F E e false = .ok ([v], evs)) : size = prod v.dims := by
  cases e with
  | var sig x idx =>
    simp only [eqSize] at hs
    split at hs
    · rename_i h1; cases hs; exact size_var hx hok hF h1 hC h
    · cases hs
  | inf op l r => cases hs; rw [scalar_inf h]; rfl
  | pre op e => cases hs; rw [scalar_pre h]; rfl
  | num n =>
    cases hs
    have := result_val (S := S) (ix := false) h
    subst this; rfl
  | tag x fs => cases hs
  | call f args =>
    cases hs
    simp only [Expr.ok, Bool.and_eq_true, decide_eq_true_eq] at hok
    simp only [Expr.calls, List.mem_cons] at hF
    simp only [trE] at ht
    split at ht
    · cases ht
    · rename_i as C3 hta
      cases ht
      have g := (trE_sim hx args hok.2 (fun f hf => hF f (Or.inr hf)) hta hC2).val (by simp [hok.1.2]) false
      rcases g.cases with a1 | ⟨er, hne, a1, a2⟩ | ⟨vs, w, evs', a1, a2, ks, rfl, a3⟩
      · simp [eval, a1] at h
      · simp [eval, a1] at h
      · rcases (hF f (Or.inl rfl) vs ks a3).cases with b1 | ⟨er, hne, b1, b2⟩ | ⟨u, r, evs'', b1, b2, hd, hr1, hr2⟩
        · simp [eval, a1, b1] at h
        · simp [eval, a1, b1] at h
        · simp only [eval, a1, b1] at h
          have := result_val h
          subst this
          rw [hok.1.1] at hd
          simp only [Option.some.injEq] at hd
          rw [← hd]; rfl
  | nil => simp [Expr.isVal] at hv
  | cons d e rest => simp [Expr.isVal] at hv
  | icons e rest => simp [Expr.isVal] at hv

/-- Comparison of further elements. -/
theorem eqLoop_spec {v w : Val K} : ∀ (ps : List (List Nat)) (as bs : List K) (r : K) (b : Bool), as.length = ps.length → bs.length = ps.length →
    (∀ (j : Nat) q, ps[j]? = some q → ∀ k, v.el q = some k → as[j]? = some k) →
    (∀ (j : Nat) q, ps[j]? = some q → ∀ k, w.el q = some k → bs[j]? = some k) →
    equal S v w ps = some b → ∃ k, eqLoop S ps.length r as bs = some k ∧ S.truthy k = (S.truthy r && b)
  | [], as, bs, r, b, _, _, _, _, h => by
    simp only [equal, Option.some.injEq] at h
    subst h
    exact ⟨r, rfl, by simp⟩
  | p :: ps, [], bs, r, b, h1, _, _, _, _ => by simp at h1
  | p :: ps, _ :: _, [], r, b, _, h1, _, _, _ => by simp at h1
  | p :: ps, a :: as, c :: bs, r, b, h1, h2, h3, h4, h => by
    simp only [equal] at h
    split at h
    · rename_i x y q hx hy hq
      split at h
      · cases h
      · rename_i z hz
        cases h
        have e1 := h3 0 p rfl x hx
        have e2 := h4 0 p rfl y hy
        simp only [List.getElem?_cons_zero, Option.some.injEq] at e1 e2
        subst e1 e2
        obtain ⟨k, hk1, hk2⟩ := eqLoop_spec ps as bs z q (by simpa using h1) (by simpa using h2)
          (fun j q hj k hk => by simpa using h3 (j + 1) q (by simpa using hj) k hk)
          (fun j q hj k hk => by simpa using h4 (j + 1) q (by simpa using hj) k hk) hq
        simp only [List.length_cons, eqLoop]
        by_cases ht : S.truthy r = true
        · rw [if_pos ht]
          simp only [hz]
          exact ⟨k, hk1, by rw [hk2, ht, Bool.true_and]⟩
        · rw [if_neg ht]
          exact ⟨r, rfl, by simp [Bool.not_eq_true _ ▸ ht]⟩
    · cases h

theorem eq_spec {v w : Val K} {ks ls : List K} (hv : Rep v ks) (hw : Rep w ls) (hd : v.dims = w.dims) {b : Bool}
    (h : equal S v w (positions v.dims) = some b) :
    ∃ k, doComp2 S (.eq (prod w.dims)) (.fld ks) (.fld ls) = some (.fld [k]) ∧ S.truthy k = b := by
  have hlen := positions_length v.dims
  have hpos := prod_pos hv.pos
  have hk := hv.len
  have hl := hw.len
  have pa : ∀ (j : Nat) q, (positions v.dims)[j]? = some q → ∀ k, v.el q = some k → ks[j]? = some k := by
    intro j q hj k hk
    have := hv.el q (positions_full (List.mem_of_getElem? hj)) k hk
    rwa [positions_at hj] at this
  have pb : ∀ (j : Nat) q, (positions v.dims)[j]? = some q → ∀ k, w.el q = some k → ls[j]? = some k := by
    intro j q hj k hk
    rw [hd] at hj
    have := hw.el q (positions_full (List.mem_of_getElem? hj)) k hk
    rwa [positions_at hj] at this
  rw [← hd] at hl ⊢
  generalize positions v.dims = ps at *
  match ps, ks, ls, hlen, hk, hl with
  | [], _, _, hlen, _, _ => simp at hlen; omega
  | _ :: _, [], _, _, hk, _ => simp at hk; omega
  | _ :: _, _ :: _, [], _, _, hl => simp at hl; omega
  | p :: ps, a :: as, c :: bs, hlen, hk, hl =>
    simp only [equal] at h
    split at h
    · rename_i x y q hx hy hq
      split at h
      · cases h
      · rename_i z hz
        cases h
        have e1 := pa 0 p rfl x hx
        have e2 := pb 0 p rfl y hy
        simp only [List.getElem?_cons_zero, Option.some.injEq] at e1 e2
        subst e1 e2
        simp only [List.length_cons] at hlen hk hl
        obtain ⟨k, hk1, hk2⟩ := eqLoop_spec ps as bs z q (by omega) (by omega)
          (fun j q hj k hk => by simpa using pa (j + 1) q (by simpa using hj) k hk)
          (fun j q hj k hk => by simpa using pb (j + 1) q (by simpa using hj) k hk) hq
        have : prod v.dims - 1 = ps.length := by omega
        simp only [doComp2, hz, this, hk1, Option.map_some]
        exact ⟨k, rfl, hk2⟩
    · cases h

/-- Messages. -/
theorem log_sim (hx : Ctx S rd cfg F IF m E env) : ∀ {l : List LogArg} {C : List Nat} {T : List String}
    {is : List LogI} {C' : List Nat} {T' : List String}, (Stmt.log l).ok rd = true → (∀ f ∈ (Stmt.log l).logCalls, FSim rd F IF f 200) →
    trLog tags env l C T = some (is, C', T') → C' <+: cfg.consts → T' <+: cfg.strings →
    logArgs S tags F E l = .error .stuck ∨ evLog S cfg IF m is = logArgs S tags F E l
  | [], C, T, is, C', T', _, _, h, _, _ => by
    simp only [trLog, Option.some.injEq, Prod.mk.injEq] at h
    obtain ⟨rfl, _⟩ := h
    right; rfl
  | .str s :: r, C, T, is, C', T', hok, hF, h, hC, hT => by
    simp only [trLog] at h
    split at h
    · cases h
    · rename_i hr
      cases h
      have hp := trLog_prefix hr
      have hs := prefix_get (hp.2.trans hT) (intern_spec T s).2
      have ih := log_sim hx (l := r) (by simpa [Stmt.ok] using hok) (by simpa [Stmt.logCalls] using hF) hr hC hT
      rcases ih with h1 | h1
      · left; simp only [logArgs, h1]
      · right; simp only [logArgs, evLog, hs, h1]
  | .exp e :: r, C, T, is, C', T', hok, hF, h, hC, hT => by
    simp only [Stmt.ok, List.all_cons, Bool.and_eq_true] at hok
    simp only [Stmt.logCalls, List.flatMap_cons, List.mem_append] at hF
    simp only [trLog] at h
    split at h
    · cases h
    · rename_i he
      split at h
      · cases h
      · rename_i hr
        cases h
        have hp := trLog_prefix hr
        have ih := log_sim hx (l := r) (by simpa [Stmt.ok] using hok.2)
          (by intro f hf; exact hF f (Or.inr (by simpa [Stmt.logCalls] using hf))) hr hC hT
        have g := evalK_sim ((trE_sim hx e hok.1.2 (fun f hf => hF f (Or.inl hf)) he (hp.1.trans hC)).val (by simp [hok.1.1]) false)
        rcases g.cases with a1 | ⟨er, _, a1, a2⟩ | ⟨k, k', evs, a1, a2, rfl⟩
        · left; simp only [logArgs, a1]
        · right; simp only [logArgs, evLog, a1, a2]
        · rcases ih with h1 | h1
          · left; simp only [logArgs, a1, h1]
          · right; simp only [logArgs, evLog, a1, a2, h1]

/-- Assignments. -/
theorem assign_sim (hx : Ctx S rd cfg F IF m E env) (hp : (entries env).Pairwise Disj) {sig : Bool} {x : Name} {p : List Nat}
    {v : Val K} {ks : List K} (hv : Rep v ks) {E' : Frames K} (h : assignTo sig x p v E = .ok E') :
    ∃ ent info, find x E = some ent ∧ within ent.val.dims p = true ∧ v.dims = ent.val.dims.drop p.length ∧ find x env = some info ∧
      info.dims = ent.val.dims ∧
      ∃ m', writeN cfg m sig ((info.addr + off info.dims p : Nat) : Int) ks = some m' ∧ Mt m' E' env := by
  unfold assignTo at h
  rcases find_rel (x := x) hx.mem with ⟨a, _⟩ | ⟨ent, info, a, b, c, d⟩
  · simp [a] at h
  · simp only [a] at h
    split at h
    · rename_i hc
      cases h
      obtain ⟨m', h1, h2, h3⟩ := write_same (cfg := cfg) c hc.2.1 hv hc.2.2 (hx.bound _ d)
      have hsig : info.sig = sig := by rw [← c.sig, hc.1]
      refine ⟨ent, info, a, hc.2.1, hc.2.2, b, c.dims.symm, m', by rw [← hsig]; exact h1, ?_⟩
      rw [← hsig]
      exact put_rel h3 h2 hx.mem hp b
    · cases h

theorem assign_cases {sig : Bool} {x : Name} {p : List Nat} {v : Val K} :
    assignTo sig x p v E = .error .stuck ∨ ∃ E', assignTo sig x p v E = .ok E' := by
  unfold assignTo
  split
  · exact Or.inl rfl
  · split
    · exact Or.inr ⟨_, rfl⟩
    · exact Or.inl rfl

end

theorem mt_declare {m : Mem K} {E : Frames K} {env : TEnv} {x : Name} {ent : Ent K} {info : Info} (h : Mt m E env) (hc : CellR m ent info) :
    Mt m (declare x ent E) (declare x info env) := by
  cases h with
  | nil => exact .nil
  | cons h1 h2 => exact .cons (.cons ⟨rfl, hc⟩ h1) h2

theorem mt_tail {m : Mem K} {E : Frames K} {env : TEnv} (h : Mt m E env) : Mt m E.tail env.tail := by
  cases h with
  | nil => exact .nil
  | cons h1 h2 => exact h2

/-- Relation of returned values. -/
def RQ (v : Val K) (r : Nat × List K) : Prop := r.1 = prod v.dims ∧ Rep v r.2

theorem trS_sim {S : Sem K} (L : Laws S) {tags : List Name → Option Nat} {chk : Bool} {rd : Name → Option (List Nat)} {cfg : Cfg}
    {F : Fns K} {IF : IFns K} {n : Nat} {ar : Name → Nat} (hF : ∀ f, FSim rd F IF f (ar f)) (s : Stmt) (hok : s.ok rd = true)
    (hL : ∀ f ∈ s.logCalls, FSim rd F IF f 200) : ∀ {t : TSt} {code : IS} {t' : TSt} {m : Mem K} {E : Frames K},
    trS tags s t = some (code, t') → Lay cfg.sigs t → t'.depth ≤ cfg.lvars → t'.consts <+: cfg.consts → t'.strings <+: cfg.strings →
    Mt m E t.env →
    SimS (fun E' m' => Mt m' E' t'.env) RQ (exec S tags chk F n s E) (run S chk cfg IF n (setS ar code) m) := by
  have hF' : ∀ f, FSim rd F (fun f ks _ => IF f ks (ar f)) f 200 := hF
  have hctx : ∀ {t : TSt} {d : Nat} {m : Mem K} {E : Frames K} (IG : IFns K), Lay cfg.sigs t → t.depth ≤ d → d ≤ cfg.lvars → Mt m E t.env →
      Ctx S rd cfg F IG m E t.env := by
    intro t d m E IG hl h1 h2 hm
    refine ⟨L, hm, fun info hi => ?_⟩
    have := hl.dep
    cases hs : info.sig with
    | false => have := hl.var info hi hs; simp only [Cfg.size, Bool.false_eq_true, if_false]; omega
    | true => have := hl.sg info hi hs; simp only [Cfg.size, if_true]; omega
  induction s with
  | decl x d =>
    intro t code t' m E h hl hd hC hT hm
    simp only [trS, Option.some.injEq, Prod.mk.injEq] at h
    obtain ⟨rfl, rfl⟩ := h
    simp only [exec, setS, run]
    by_cases h0 : 0 ∈ d
    · rw [if_pos h0]; exact simS_stuck
    · rw [if_neg h0]
      refine simS_ok (mt_declare hm ⟨rfl, rfl, foldl_prod d, h0, ?_⟩)
      intro q _ k hk
      simp [blank] at hk
  | assign sig x idx e =>
    intro t code t' m E h hl hd hC hT hm
    have hst := trS_stat _ h
    have hx := hctx (fun f ks _ => IF f ks (ar f)) hl hst.depth hd hm
    by_cases hc : ∃ f args, e = .call f args
    · obtain ⟨f, args, rfl⟩ := hc
      simp only [Stmt.ok, Bool.and_eq_true] at hok
      obtain ⟨⟨⟨hi1, hi2⟩, ha1⟩, ha2⟩ := hok
      simp only [trS] at h
      split at h
      · cases h
      · rename_i loc size C1 hs
        split at h
        · cases h
        · rename_i as C2 he
          cases h
          have gs := symbol_sim hx hi1 (fun i C' => trE_sim hx idx hi2 (fun f _ => hF' f)) hs ((trE_prefix _ he).trans hC)
          have ga := (trE_sim hx args ha2 (fun f _ => hF' f) he hC).val (by simp [ha1]) false
          simp only [setS, run_one]
          simp only [run, ev_setI, exec]
          rcases ga.cases with a1 | ⟨er, _, a1, a2⟩ | ⟨vs, w, evs, a1, a2, ks, rfl, a3⟩
          · simp only [a1]; exact simS_stuck
          · simp only [a1, a2]; exact simS_err er
          · rcases gs.cases with b1 | ⟨er, _, b1, b2⟩ | ⟨is, w, evs', b1, b2, ⟨z, rfl⟩, b3⟩
            · simp only [a1, b1]; exact simS_stuck
            · simp only [a1, a2, b1, b2]; exact simS_err er
            · rcases (hF f vs ks a3).cases with c1 | ⟨er, _, c1, c2⟩ | ⟨v, r, evs'', c1, c2, hrd, hr1, hr2⟩
              · simp only [a1, b1, c1]; exact simS_stuck
              · simp only [a1, a2, b1, b2, c1, c2]; exact simS_err er
              · obtain ⟨w', rs⟩ := r
                simp only at hr1 hr2
                simp only [a1, b1, c1]
                cases hp : toPath S is with
                | none => exact simS_stuck
                | some p =>
                  rcases assign_cases (E := E) (sig := sig) (x := x) (p := p) (v := v) with d1 | ⟨E', d1⟩
                  · simp only [d1]; exact simS_stuck
                  · obtain ⟨ent, info, e1, e2, e3, e4, e5, m', e6, e7⟩ := assign_sim hx hl.pw hr2 d1
                    obtain ⟨info', f1, f2, f3, f4, f5⟩ := b3 ent p e1 hp e2
                    rw [f1] at e4; cases e4
                    simp only [V.int.injEq] at f4
                    subst f4
                    have hsz : size = prod v.dims := by rw [f5, e3, e5]
                    have hpos := prod_pos hr2.pos
                    have htk : (if w' > 1 then min w' size else 1) = prod v.dims := by
                      rw [hr1, hsz, Nat.min_self]
                      split
                      · rfl
                      · omega
                    simp only [a2, b2, c2, htk, takeN_all hr2.len, e6, d1]
                    exact simS_ok e7
    · have hc' : ∀ f args, e ≠ .call f args := fun f args he => hc ⟨f, args, he⟩
      rw [ok_assign hc'] at hok
      simp only [Bool.and_eq_true] at hok
      obtain ⟨⟨⟨hi1, hi2⟩, ha1⟩, ha2⟩ := hok
      rw [trS_assign hc'] at h
      rw [exec_assign hc']
      split at h
      · cases h
      · rename_i loc size C1 hs
        split at h
        · cases h
        · rename_i ssize C2 hz
          split at h
          · cases h
          · rename_i src C3 he
            cases h
            have gs := symbol_sim hx hi1 (fun i C' => trE_sim hx idx hi2 (fun f _ => hF' f)) hs
              ((exprSize_prefix hz).trans ((trE_prefix _ he).trans hC))
            have ga := eval1_sim ((trE_sim hx e ha2 (fun f _ => hF' f) he hC).val (by simp [ha1]) false)
            simp only [setS, run_one]
            simp only [run, ev_setI]
            rcases gs.cases with b1 | ⟨er, _, b1, b2⟩ | ⟨is, w, evs', b1, b2, ⟨z, rfl⟩, b3⟩
            · simp only [b1]; exact simS_stuck
            · simp only [b1, b2]; exact simS_err er
            · rcases ga.cases with a1 | ⟨er, _, a1, a2⟩ | ⟨v, w', evs, a1, a2, ks, rfl, a3⟩
              · simp only [a1, b1]; exact simS_stuck
              · simp only [a1, a2, b1, b2]; exact simS_err er
              · have hsize := exprSize_spec hx ha2 (fun f _ => hF' f) hz ((trE_prefix _ he).trans hC) (eval_cases a1 rfl)
                simp only [a1, b1]
                cases hp : toPath S is with
                | none => exact simS_stuck
                | some p =>
                  rcases assign_cases (E := E) (sig := sig) (x := x) (p := p) (v := v) with d1 | ⟨E', d1⟩
                  · simp only [d1]; exact simS_stuck
                  · obtain ⟨ent, info, e1, e2, e3, e4, e5, m', e6, e7⟩ := assign_sim hx hl.pw a3 d1
                    obtain ⟨info', f1, f2, f3, f4, f5⟩ := b3 ent p e1 hp e2
                    rw [f1] at e4; cases e4
                    simp only [V.int.injEq] at f4
                    subst f4
                    have hsz : size = prod v.dims := by rw [f5, e3, e5]
                    have hpos := prod_pos a3.pos
                    have htk : copied (min size ssize) = prod v.dims := by
                      rw [hsize, hsz, Nat.min_self, copied_pos hpos]
                    simp only [a2, b2, htk, takeN_all a3.len, e6, d1]
                    exact simS_ok e7
  | eqc l r =>
    intro t code t' m E h hl hd hC hT hm
    have hst := trS_stat _ h
    have hx := hctx (fun f ks _ => IF f ks (ar f)) hl hst.depth hd hm
    simp only [Stmt.ok, Bool.and_eq_true] at hok
    obtain ⟨⟨⟨hl1, hl2⟩, hr1⟩, hr2⟩ := hok
    simp only [trS] at h
    split at h
    · cases h
    · rename_i k C1 hs
      split at h
      · cases h
      · rename_i l' C2 hel
        split at h
        · cases h
        · rename_i r' C3 her
          cases h
          cases chk with
          | false => simp only [setS, run_one]; simp only [exec, run]; exact simS_ok hm
          | true =>
            have p2 := trE_prefix _ her
            have gl := eval1_sim ((trE_sim hx l hl2 (fun f _ => hF' f) hel (p2.trans hC)).val (by simp [hl1]) false)
            have gr := eval1_sim ((trE_sim hx r hr2 (fun f _ => hF' f) her hC).val (by simp [hr1]) false)
            simp only [setS, run_one]
            simp only [exec, run, evK, setI, ev_setI, ev, if_true, Bool.and_false, Bool.not_true, Bool.false_eq_true, if_false]
            rcases gl.cases with a1 | ⟨er, _, a1, a2⟩ | ⟨v, w', evs, a1, a2, ks, rfl, a3⟩
            · simp only [a1]; exact simS_stuck
            · simp only [a1, a2]; exact simS_err er
            · rcases gr.cases with b1 | ⟨er, _, b1, b2⟩ | ⟨w, w', evs', b1, b2, ls, rfl, b3⟩
              · simp only [a1, b1]; exact simS_stuck
              · simp only [a1, a2, b1, b2]; exact simS_err er
              · have hsize := eqSize_spec hx hr1 hr2 (fun f _ => hF' f) hs ((trE_prefix _ hel).trans (p2.trans hC)) her hC (eval_cases b1 rfl)
                simp only [a1, b1]
                by_cases hdim : v.dims = w.dims
                · rw [if_pos hdim]
                  cases hq : equal S v w (positions v.dims) with
                  | none => exact simS_stuck
                  | some q =>
                    obtain ⟨k', hk1, hk2⟩ := eq_spec a3 b3 hdim hq
                    subst hsize
                    simp only [a2, b2, hk1]
                    cases q with
                    | true => simp only [hk2, if_true]; exact simS_ok hm
                    | false => simp only [hk2, Bool.false_eq_true, if_false]; exact simS_err _
                · rw [if_neg hdim]; exact simS_stuck
  | assert e =>
    intro t code t' m E h hl hd hC hT hm
    have hst := trS_stat _ h
    have hx := hctx (fun f ks _ => IF f ks (ar f)) hl hst.depth hd hm
    simp only [Stmt.ok, Bool.and_eq_true] at hok
    simp only [trS] at h
    split at h
    · cases h
    · rename_i e' C1 he
      cases h
      have g := evalK_sim ((trE_sim hx e hok.2 (fun f _ => hF' f) he hC).val (by simp [hok.1]) false)
      simp only [setS, run_one]
      simp only [exec, run, evK_setI, Bool.false_and, Bool.false_eq_true, if_false]
      rcases g.cases with a1 | ⟨er, _, a1, a2⟩ | ⟨k, k', evs, a1, a2, rfl⟩
      · simp only [a1]; exact simS_stuck
      · simp only [a1, a2]; exact simS_err er
      · simp only [a1, a2]
        by_cases hk : S.truthy k = true
        · simp only [hk, if_true]; exact simS_ok hm
        · simp only [hk, if_false]; exact simS_err _
  | ret e =>
    intro t code t' m E h hl hd hC hT hm
    have hst := trS_stat _ h
    have hx := hctx (fun f ks _ => IF f ks (ar f)) hl hst.depth hd hm
    simp only [Stmt.ok, Bool.and_eq_true] at hok
    simp only [trS] at h
    split at h
    · cases h
    · rename_i size C1 hz
      split at h
      · cases h
      · rename_i e' C2 he
        cases h
        have g := eval1_sim ((trE_sim hx e hok.2 (fun f _ => hF' f) he hC).val (by simp [hok.1]) false)
        simp only [setS, run_one]
        simp only [exec, run, ev_setI]
        rcases g.cases with a1 | ⟨er, _, a1, a2⟩ | ⟨v, w', evs, a1, a2, ks, rfl, a3⟩
        · simp only [a1]; exact simS_stuck
        · simp only [a1, a2]; exact simS_err er
        · have hsize := exprSize_spec hx hok.2 (fun f _ => hF' f) hz ((trE_prefix _ he).trans hC) (eval_cases a1 rfl)
          have hpos := prod_pos a3.pos
          have htk : copied size = prod v.dims := by rw [hsize, copied_pos hpos]
          simp only [a1, a2, htk, takeN_all a3.len]
          exact simS_ret ⟨hsize, a3⟩
  | log args =>
    intro t code t' m E h hl hd hC hT hm
    have hst := trS_stat _ h
    have hx := hctx IF hl hst.depth hd hm
    simp only [trS] at h
    split at h
    · cases h
    · rename_i is C1 T1 he
      cases h
      simp only [setS, run_one]
      simp only [exec, run]
      rcases log_sim hx hok hL he hC hT with h1 | h1
      · simp only [h1]; exact simS_stuck
      · rw [h1]
        rcases logArgs S tags F E args with er | evs
        · exact simS_err er
        · exact simS_ok hm
  | ite c a b iha ihb =>
    intro t code t' m E h hl hd hC hT hm
    have hst := trS_stat _ h
    have hx := hctx (fun f ks _ => IF f ks (ar f)) hl hst.depth hd hm
    simp only [Stmt.ok, Bool.and_eq_true] at hok
    obtain ⟨⟨⟨⟨⟨hc1, hc2⟩, ha1⟩, ha2⟩, hb1⟩, hb2⟩ := hok
    simp only [Stmt.logCalls, List.mem_append] at hL
    simp only [trS] at h
    split at h
    · cases h
    · rename_i c' C1 hc
      split at h
      · cases h
      · rename_i a' t1 ha
        split at h
        · cases h
        · rename_i b' t2 hb
          cases h
          have sa := trS_stat _ ha
          have sb := trS_stat _ hb
          have g := evalK_sim ((trE_sim hx c hc2 (fun f _ => hF' f) hc (sa.consts.trans (sb.consts.trans hC))).val (by simp [hc1]) false)
          have ea := (sa.closed ha1).1
          have eb := (sb.closed hb1).1
          simp only at ea
          simp only [setS, run_one]
          simp only [exec, run, evK_setI]
          rcases g.cases with a1 | ⟨er, _, a1, a2⟩ | ⟨k, k', evs, a1, a2, rfl⟩
          · simp only [a1]; exact simS_stuck
          · simp only [a1, a2]; exact simS_err er
          · simp only [a1, a2]
            have key : SimS (fun E' m' => Mt m' E' t'.env) RQ
                (if S.truthy k = true then exec S tags chk F n a E else exec S tags chk F n b E)
                (if S.truthy k = true then run S chk cfg IF n (setS ar a') m else run S chk cfg IF n (setS ar b') m) := by
              by_cases hk : S.truthy k = true
              · rw [if_pos hk, if_pos hk]
                have := iha ha2 (fun f hf => hL f (Or.inl hf)) ha (hl.consts _) (sb.depth.trans hd) (sb.consts.trans hC) (sb.strings.trans hT) hm
                rwa [← eb] at this
              · rw [if_neg hk, if_neg hk]
                exact ihb hb2 (fun f hf => hL f (Or.inr hf)) hb (sa.lay _ (hl.consts _)) hd hC hT (by rw [ea]; exact hm)
            rcases key.cases with d1 | ⟨er, _, d1, d2⟩ | ⟨x', y', evs'', d1, d2, hr'⟩ | ⟨x', y', evs'', v, w, d1, d2, hq⟩
            · simp only [d1]; exact simS_stuck
            · simp only [d1, d2]; exact simS_err er
            · simp only [d1, d2]; exact simS_ok hr'
            · simp only [d1, d2]; exact simS_ret hq
  | loop c s ih =>
    intro t code t' m E h hl hd hC hT hm
    have hst := trS_stat _ h
    simp only [Stmt.ok, Bool.and_eq_true] at hok
    obtain ⟨⟨⟨hc1, hc2⟩, ha1⟩, ha2⟩ := hok
    simp only [Stmt.logCalls] at hL
    simp only [trS] at h
    split at h
    · cases h
    · rename_i c' C1 hc
      split at h
      · cases h
      · rename_i a' t1 ha
        cases h
        have sa := trS_stat _ ha
        have ea := (sa.closed ha1).1
        simp only at ea
        simp only [setS, run_one]
        simp only [exec, run, evK_setI]
        exact iter_sim (K := K) (R := fun E' m' => Mt m' E' t'.env) (Q := RQ)
          (c := fun E =>
            match evalK S tags F E c with
            | .error e => .error e
            | .ok (k, evs) => .ok (S.truthy k, evs))
          (c' := fun m =>
            match evK S cfg (fun f ks _ => IF f ks (ar f)) m c' with
            | .error e => .error e
            | .ok (k, evs) => .ok (S.truthy k, evs))
          (body := exec S tags chk F n s) (body' := run S chk cfg IF n (setS ar a'))
          (fun E m hm => by
            rw [ea] at hm
            have hx := hctx (fun f ks _ => IF f ks (ar f)) hl hst.depth hd hm
            exact cond_sim ((trE_sim hx c hc2 (fun f _ => hF' f) hc (sa.consts.trans hC)).val (by simp [hc1]) false))
          (fun E m hm => ih ha2 hL ha (hl.consts _) hd hC hT (by rw [ea] at hm; exact hm))
          n E m (by rw [ea]; exact hm)
  | block ss ih =>
    intro t code t' m E h hl hd hC hT hm
    simp only [Stmt.ok] at hok
    simp only [Stmt.logCalls] at hL
    simp only [trS] at h
    split at h
    · cases h
    · rename_i a' t1 ha
      cases h
      have key := ih hok hL (E := [] :: E) ha hl.push hd hC hT (.cons .nil hm)
      simp only [exec]
      rcases key.cases with d1 | ⟨er, _, d1, d2⟩ | ⟨x', y', evs'', d1, d2, hr'⟩ | ⟨x', y', evs'', v, w, d1, d2, hq⟩
      · simp only [d1]; exact simS_stuck
      · simp only [d1, d2]; exact simS_err er
      · simp only [d1, d2]; exact simS_ok (mt_tail hr')
      · simp only [d1, d2]; exact simS_ret hq
  | nil =>
    intro t code t' m E h hl hd hC hT hm
    simp only [trS, Option.some.injEq, Prod.mk.injEq] at h
    obtain ⟨rfl, rfl⟩ := h
    exact simS_ok hm
  | cons s ss ih1 ih2 =>
    intro t code t' m E h hl hd hC hT hm
    simp only [Stmt.ok, Bool.and_eq_true] at hok
    simp only [Stmt.logCalls, List.mem_append] at hL
    simp only [trS] at h
    split at h
    · cases h
    · rename_i a' t1 ha
      split at h
      · cases h
      · rename_i b' t2 hb
        cases h
        have sa := trS_stat _ ha
        have sb := trS_stat _ hb
        have g := ih1 hok.1 (fun f hf => hL f (Or.inl hf)) ha hl (sb.depth.trans hd) (sb.consts.trans hC) (sb.strings.trans hT) hm
        rw [setS_append, run_append]
        simp only [exec, run]
        rcases g.cases with d1 | ⟨er, _, d1, d2⟩ | ⟨x', y', evs'', d1, d2, hr'⟩ | ⟨x', y', evs'', v, w, d1, d2, hq⟩
        · simp only [d1]; exact simS_stuck
        · simp only [d1, d2]; exact simS_err er
        · have g2 := ih2 hok.2 (fun f hf => hL f (Or.inr hf)) hb (sa.lay _ hl) hd hC hT hr'
          simp only [d1, d2]
          rcases g2.cases with d1 | ⟨er, _, d1, d2⟩ | ⟨x', y', evs'', d1, d2, hr'⟩ | ⟨x', y', evs'', v, w, d1, d2, hq⟩
          · simp only [d1]; exact simS_stuck
          · simp only [d1, d2]; exact simS_err er
          · simp only [d1, d2]; exact simS_ok hr'
          · simp only [d1, d2]; exact simS_ret hq
        · simp only [d1, d2]; exact simS_ret hq

end Verif.Ir
