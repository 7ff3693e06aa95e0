import Verif.TypesExec

/-!
Symbol analysis and execution: in a program whose names are accepted by `names` every name an execution
looks up is in the environment.
-/

set_option linter.unusedSimpArgs false
set_option linter.unusedVariables false

namespace Verif.Types

/-- No name is missing, and a value satisfies `Q`. -/
def Bd {α : Type} (r : Res α) (Q : α → Prop) : Prop :=
  match r with
  | .ok (a, _) => Q a
  | .error e => e ≠ .unbound

theorem Bd.bnd {α β : Type} {r : Res α} {Q : α → Prop} {f : α → Nat → Res β} {T : β → Prop} (h : Bd r Q)
    (hf : ∀ a k, Q a → Bd (f a k) T) : Bd (Types.bnd r f) T := by
  unfold Types.bnd
  rcases r with e | ⟨a, k⟩
  · exact h
  · exact hf a k h

theorem Bd.mono {α : Type} {r : Res α} {Q T : α → Prop} (h : Bd r Q) (hf : ∀ a, Q a → T a) : Bd r T := by
  rcases r with e | ⟨a, k⟩
  · exact h
  · exact hf a h

theorem Bd.guard {b : Bool} {k : Nat} {e : Err} (he : e ≠ .unbound) : Bd (Types.guard b e k) fun _ => True := by
  unfold Types.guard
  split
  · trivial
  · exact he

theorem Bd.oneV {r : Res (List Val)} {Q : List Val → Prop} (h : Bd r Q) :
    Bd (Types.bnd r Types.oneV) fun _ => True := by
  refine h.bnd fun vs k _ => ?_
  unfold Types.oneV
  split
  · trivial
  · simp [Bd]

/-- The names of a list. -/
def dom {α : Type} (l : List (Nat × α)) : List Nat := l.map Prod.fst

/-- The name is a variable, a signal or a component of the environment. -/
def Has (env : XEnv) (x : Nat) : Prop := (∃ b ∈ env.blocks, x ∈ dom b) ∨ x ∈ dom env.flat

theorem get_dom {α : Type} {l : List (Nat × α)} {x : Nat} (h : x ∈ dom l) : get l x ≠ none := by
  induction l with
  | nil => cases h
  | cons e l ih =>
    obtain ⟨y, a⟩ := e
    simp only [get]
    by_cases hy : y = x
    · simp [hy]
    · rw [if_neg hy]
      refine ih ?_
      simp only [dom, List.map_cons, List.mem_cons] at h
      exact h.resolve_left fun h => hy h.symm

theorem getB_dom {α : Type} {bs : List (List (Nat × α))} {x : Nat} (h : ∃ b ∈ bs, x ∈ dom b) :
    getB bs x ≠ none := by
  induction bs with
  | nil => obtain ⟨b, hb, _⟩ := h; cases hb
  | cons b bs ih =>
    simp only [getB]
    cases hg : get b x with
    | some a => simp
    | none =>
      refine ih ?_
      obtain ⟨b', hb', hx⟩ := h
      rcases List.mem_cons.mp hb' with rfl | hb'
      · exact absurd hg (get_dom hx)
      · exact ⟨b', hb', hx⟩

theorem flat_dom {γ : Type} {fl : Flat γ} {x : Nat} (h : x ∈ dom fl) : sigGet fl x ≠ none ∨ compGet fl x ≠ none := by
  obtain ⟨⟨y, d⟩, he, rfl⟩ := List.mem_map.mp h
  cases d with
  | comp c =>
    right
    intro hn
    have := List.findSome?_eq_none_iff.mp hn _ he
    simp at this
  | sig io n =>
    left
    have key : sigIn io fl y ≠ none := by
      intro hn
      have := List.findSome?_eq_none_iff.mp hn _ he
      simp at this
    unfold sigGet
    cases h1 : sigIn .input fl y with
    | some m => simp
    | none =>
      cases h2 : sigIn .output fl y with
      | some m => simp
      | none =>
        cases io with
        | input => exact absurd h1 key
        | output => exact absurd h2 key
        | inter => exact key

/-- A name of the environment is found by one of the lookups. -/
theorem Has.found {env : XEnv} {x : Nat} (h : Has env x) :
    ¬ (sigGet env.flat x = none ∧ compGet env.flat x = none ∧ getB env.blocks x = none) := by
  rintro ⟨h1, h2, h3⟩
  rcases h with h | h
  · exact getB_dom h h3
  · rcases flat_dom h with h | h
    · exact h h1
    · exact h h2

theorem readAr_bd {f : Bool} {d n w : Nat} {e : Err} (h : readAr f d n w = .error e) : e ≠ .unbound := by
  unfold readAr at h
  split at h
  · cases h; simp
  · split at h <;> cases h

theorem readX_bd {f : Bool} {env : XEnv} {x n w : Nat} (hx : Has env x) {e : Err} (h : readX f env x n w = .error e) :
    e ≠ .unbound := by
  unfold readX at h
  split at h
  · exact readAr_bd h
  · rename_i h1
    split at h
    · split at h
      · cases h; simp
      · split at h
        · cases h
        · split at h
          · cases h; simp
          · cases h
    · rename_i h2
      split at h
      · cases h
      · exact readAr_bd h
      · rename_i h3
        exact absurd ⟨h1, h2, h3⟩ hx.found

theorem portX_bd {P : Prog} {t s : Nat} {ports : List (Nat × Nat)} {e : Err} (h : portX P t ports s = .error e) :
    e ≠ .unbound := by
  unfold portX at h
  split at h
  · cases h
  · split at h
    · cases h; simp
    · split at h <;> (cases h; simp)

theorem instX_bd {env : XEnv} {x n w : Nat} (hx : Has env x) {e : Err} (h : instX env x n w = .error e) :
    e ≠ .unbound := by
  unfold instX at h
  split at h
  · cases h; simp
  · rename_i h1
    split at h
    · split at h
      · cases h; simp
      · split at h
        · cases h; simp
        · cases h
    · rename_i h2
      split at h
      · cases h; simp
      · rename_i h3
        simp only [Option.isSome_iff_ne_none, ne_eq, not_not] at h3
        exact absurd ⟨h1, h2, h3⟩ hx.found

theorem readPort_bd {P : Prog} {f : Bool} {env : XEnv} {x n s m w : Nat} (hx : Has env x) {e : Err}
    (h : readPort P f env x n s m w = .error e) : e ≠ .unbound := by
  unfold readPort at h
  split at h
  · rename_i h1; cases h; exact instX_bd hx h1
  · split at h
    · rename_i h1; cases h; exact portX_bd h1
    · split at h
      · cases h
      · exact readAr_bd h

theorem ask_bd {α : Type} {o : Nat → Nat} {k : Nat} {f : Nat → Except Err α}
    (h : ∀ w e, f w = .error e → e ≠ .unbound) : Bd (ask o k f) fun _ => True := by
  unfold ask
  split
  · trivial
  · rename_i e he; exact h _ e he

theorem assignX_bd {env : XEnv} {x n : Nat} {op : AOp} {v : Val} (hx : Has env x) {e : Err}
    (h : assignX env x n op v = .error e) : e ≠ .unbound := by
  unfold assignX at h
  split at h
  · split at h
    · cases h; simp
    · split at h
      · cases h; simp
      · split at h <;> split at h <;> (cases h; try simp)
  · rename_i h3
    split at h
    · split at h
      · cases h; simp
      · split at h <;> (cases h; try simp)
    · rename_i h1
      split at h
      · split at h
        · cases h; simp
        · split at h
          · cases h; simp
          · split at h
            · cases h; simp
            · cases h
            · split at h <;> (cases h; try simp)
      · rename_i h2
        exact absurd ⟨h1, h2, h3⟩ hx.found

theorem assignP_bd {P : Prog} {env : XEnv} {x n s m w : Nat} {op : AOp} {v : Val} (hx : Has env x) {e : Err}
    (h : assignP P env x n s m op v w = .error e) : e ≠ .unbound := by
  unfold assignP at h
  split at h
  · cases h; simp
  · split at h
    · rename_i h1; cases h; exact instX_bd hx h1
    · split at h
      · rename_i h1; cases h; exact portX_bd h1
      · split at h <;> (cases h; try simp)

section Bodies

variable {P : Prog} {faithful : Bool} {reached : List Nat} {o : Nat → Nat}
  {call : Nat → List Val → Nat → Res Val}

theorem eval_bd (hcall : ∀ f vs k, Bd (call f vs k) fun _ => True) {env : XEnv} {sc : List (List Nat)}
    (hsc : ∀ x, sc.any (·.contains x) = true → Has env x) (e : Exp) :
    namesE P sc e = true → ∀ k, Bd (eval P faithful reached o call env e k) fun _ => True := by
  have hk : Err.kind ≠ .unbound := by simp
  induction e with
  | num => intro _ k; trivial
  | nil => intro _ k; trivial
  | var x is ih =>
    intro h k
    simp only [namesE, Bool.and_eq_true] at h
    exact (ih h.2 k).bnd fun vs k1 _ => (Bd.guard hk).bnd fun _ k1 _ =>
      (ask_bd fun w e he => readX_bd (hsc x h.1) he).bnd fun _ _ _ => trivial
  | port x is s js ih1 ih2 =>
    intro h k
    simp only [namesE, Bool.and_eq_true] at h
    exact (ih1 h.1.2 k).bnd fun vs k1 _ => (ih2 h.2 k1).bnd fun ws k2 _ => (Bd.guard hk).bnd fun _ k2 _ =>
      (ask_bd fun w e he => readPort_bd (hsc x h.1.1) he).bnd fun _ _ _ => trivial
  | op l r ih1 ih2 =>
    intro h k
    simp only [namesE, Bool.and_eq_true] at h
    exact (ih1 h.1 k).oneV.bnd fun v k1 _ => (ih2 h.2 k1).oneV.bnd fun w k2 _ => (Bd.guard hk).bnd fun _ _ _ => trivial
  | pre e ih => intro h k; exact (ih h k).oneV.bnd fun v k1 _ => (Bd.guard hk).bnd fun _ _ _ => trivial
  | par e ih =>
    intro h k
    refine (ih h k).oneV.bnd fun v k1 _ => ?_
    cases v <;> simp [Bd]
  | cond c a b ih1 ih2 ih3 =>
    intro h k
    simp only [namesE, Bool.and_eq_true] at h
    refine (ih1 h.1.1 k).oneV.bnd fun v k1 _ => (Bd.guard hk).bnd fun _ k1 _ => ?_
    split
    · exact (ih2 h.1.2 _).oneV.bnd fun _ _ _ => trivial
    · split
      · exact (ih3 h.2 _).oneV.bnd fun _ _ _ => trivial
      · trivial
  | arr es ih =>
    intro h k
    refine (ih h k).bnd fun vs k1 _ => ?_
    cases ha : arrX vs with
    | ok v => trivial
    | error e =>
      unfold arrX at ha
      split at ha
      · cases ha; exact hk
      · split at ha
        · split at ha
          · cases ha
          · split at ha
            · split at ha <;> (cases ha; try exact hk)
            · cases ha; exact hk
        · cases ha; exact hk
  | uni v n ih1 ih2 =>
    intro h k
    simp only [namesE, Bool.and_eq_true] at h
    refine (ih2 h.2 k).oneV.bnd fun w k1 _ => (Bd.guard hk).bnd fun _ k1 _ => (ih1 h.1 k1).oneV.bnd fun u k2 _ => ?_
    cases u <;> simp [Bd]
  | call f es ih =>
    intro h k
    simp only [namesE] at h
    have hes : namesE P sc es = true := by
      split at h
      · cases h
      · simp only [Bool.and_eq_true] at h; exact h.2
    exact (ih hes k).bnd fun vs k1 _ => (Bd.guard hk).bnd fun _ k1 _ => (Bd.guard (by simp)).bnd fun _ k1 _ =>
      (hcall f vs k1).bnd fun _ _ _ => trivial
  | cons e es ih1 ih2 =>
    intro h k
    simp only [namesE, Bool.and_eq_true] at h
    exact (ih1 h.1 k).oneV.bnd fun v k1 _ => (ih2 h.2 k1).bnd fun _ _ _ => trivial

/-- The blocks of names and the environment agree. -/
def Scoped (env : XEnv) (sc : List (List Nat)) : Prop :=
  List.Forall₂ (fun (b : List (Nat × Option Nat)) (s : List Nat) => ∀ x ∈ s, x ∈ dom b ∨ x ∈ dom env.flat) env.blocks sc

theorem Scoped.has {env : XEnv} {sc : List (List Nat)} (h : Scoped env sc) (x : Nat)
    (hx : sc.any (·.contains x) = true) : Has env x := by
  obtain ⟨bs, fl⟩ := env
  unfold Scoped at h
  simp only at h
  simp only [List.any_eq_true, List.contains_iff_mem] at hx
  obtain ⟨s, hs, hx⟩ := hx
  induction h with
  | nil => cases hs
  | @cons b s' bs sc hb _ ih =>
    rcases List.mem_cons.mp hs with rfl | hs
    · rcases hb x hx with h | h
      · exact .inl ⟨b, List.mem_cons_self, h⟩
      · exact .inr h
    · rcases ih hs with ⟨b', hb', h⟩ | h
      · exact .inl ⟨b', List.mem_cons_of_mem _ hb', h⟩
      · exact .inr h

/-- Statements keep the outer blocks and forget no name. -/
structure Grow (env env' : XEnv) : Prop where
  tail : env'.blocks.tail = env.blocks.tail
  nil : env.blocks = [] ↔ env'.blocks = []
  head : ∀ x b, env.blocks.head? = some b → x ∈ dom b → ∃ b', env'.blocks.head? = some b' ∧ x ∈ dom b'
  flat : ∀ x ∈ dom env.flat, x ∈ dom env'.flat

theorem Grow.refl (env : XEnv) : Grow env env := ⟨rfl, Iff.rfl, fun x b h hx => ⟨b, h, hx⟩, fun _ h => h⟩

theorem Grow.trans {a b c : XEnv} (h1 : Grow a b) (h2 : Grow b c) : Grow a c :=
  ⟨h2.tail.trans h1.tail, h1.nil.trans h2.nil,
   fun x s h hx => by obtain ⟨s', h', hx'⟩ := h1.head x s h hx; exact h2.head x s' h' hx',
   fun x h => h2.flat x (h1.flat x h)⟩

theorem Grow.scoped {env env' : XEnv} (h : Grow env env') {sc : List (List Nat)} (hs : Scoped env sc) : Scoped env' sc := by
  obtain ⟨bs, fl⟩ := env
  obtain ⟨bs', fl'⟩ := env'
  obtain ⟨h1, h2, h3, h4⟩ := h
  unfold Scoped at hs ⊢
  simp only at h1 h2 h3 h4 hs ⊢
  cases hs with
  | nil => rw [h2.mp rfl]; exact .nil
  | @cons b s bs sc hb hr =>
    cases bs' with
    | nil => have := h2.mpr rfl; cases this
    | cons b' bs' =>
      simp only [List.tail_cons] at h1
      subst h1
      refine .cons ?_ ?_
      · intro x hx
        rcases hb x hx with h | h
        · obtain ⟨b'', e, h⟩ := h3 x b rfl h
          cases e
          exact .inl h
        · exact .inr (h4 x h)
      · exact hr.imp fun _ _ h x hx => (h x hx).imp id (h4 x)

/-- Opening and closing a block. -/
theorem Grow.blk {env env' : XEnv} (h : Grow { env with blocks := [] :: env.blocks } env') :
    Grow env { env' with blocks := env'.blocks.tail } := by
  have ht : env'.blocks.tail = env.blocks := h.tail
  refine ⟨by simp [ht], by simp [ht], ?_, h.flat⟩
  intro x b hb hx
  exact ⟨b, by simp [ht, hb], hx⟩

theorem Scoped.blk {env : XEnv} {sc : List (List Nat)} (h : Scoped env sc) :
    Scoped { env with blocks := [] :: env.blocks } ([] :: sc) := .cons (fun _ h => by cases h) h

theorem dom_compSet {γ : Type} (fl : Flat γ) (x : Nat) (f : γ → γ) : dom (compSet fl x f) = dom fl := by
  unfold dom compSet
  rw [List.map_map]
  refine List.map_congr_left fun e _ => ?_
  obtain ⟨y, d⟩ := e
  cases d with
  | sig io n => rfl
  | comp c => simp only [Function.comp]; split <;> rfl

theorem assignX_grow {env env' : XEnv} {x n : Nat} {op : AOp} {v : Val} (h : assignX env x n op v = .ok env') :
    Grow env env' := by
  unfold assignX at h
  split at h
  · split at h
    · cases h
    · split at h
      · cases h
      · split at h <;> split at h <;> cases h <;> exact .refl _
  · split at h
    · split at h
      · cases h
      · split at h <;> cases h; exact .refl _
    · split at h
      · split at h
        · cases h
        · split at h
          · cases h
          · split at h
            · cases h
            · cases h; exact .refl _
            · split at h <;> cases h
              exact ⟨rfl, Iff.rfl, fun x b h hx => ⟨b, h, hx⟩, fun x hx => by simp only [dom_compSet]; exact hx⟩
      · cases h

/-- What the execution of a statement yields. -/
def Yields (env : XEnv) (sc' : List (List Nat)) (r : XEnv × Option Val) : Prop :=
  Grow env r.1 ∧ (r.2 = none → Scoped r.1 sc')

theorem blkX_bd {f : XEnv → Nat → Res (XEnv × Option Val)} {env : XEnv} {sc sc' : List (List Nat)} (hs : Scoped env sc)
    (h : ∀ k, Bd (f { env with blocks := [] :: env.blocks } k) (Yields { env with blocks := [] :: env.blocks } sc'))
    (k : Nat) : Bd (blkX f env k) (Yields env sc) :=
  (h k).bnd fun r k1 hr => ⟨hr.1.blk, fun _ => hr.1.blk.scoped hs⟩

theorem iter_bd {f : XEnv → Nat → Res (XEnv × Option Val)} {sc : List (List Nat)}
    (h : ∀ env k, Scoped env sc → Bd (f env k) (Yields env sc)) :
    ∀ n env k, Scoped env sc → Bd (iter f n env k) (Yields env sc) := by
  intro n
  induction n with
  | zero => intro env k hs; exact ⟨.refl _, fun _ => hs⟩
  | succ n ih =>
    intro env k hs
    refine (h env k hs).bnd fun r k1 hr => ?_
    cases hr2 : r.2 with
    | some v => exact ⟨hr.1, fun h => absurd h (by rw [hr2]; simp)⟩
    | none => exact (ih r.1 k1 (hr.2 hr2)).mono fun r' hr' => ⟨hr.1.trans hr'.1, hr'.2⟩

theorem exec_bd (hcall : ∀ f vs k, Bd (call f vs k) fun _ => True) (s : Stmt) :
    ∀ sc sc', namesS P s sc = some sc' → ∀ env k, Scoped env sc →
      Bd (exec P faithful reached o call s env k) (Yields env sc') := by
  have hk : Err.kind ≠ .unbound := by simp
  have ev : ∀ {env : XEnv} {sc : List (List Nat)}, Scoped env sc → ∀ e, namesE P sc e = true → ∀ k,
      Bd (eval P faithful reached o call env e k) fun _ => True :=
    fun hs e he k => eval_bd hcall hs.has e he k
  have same : ∀ {env : XEnv} {sc : List (List Nat)} {v : Option Val}, Scoped env sc → Yields env sc (env, v) :=
    fun hs => ⟨.refl _, fun _ => hs⟩
  induction s with
  | skip => intro sc sc' h env k hs; cases h; exact same hs
  | seq a b iha ihb =>
    intro sc sc' h env k hs
    simp only [namesS] at h
    cases ha : namesS P a sc with
    | none => rw [ha] at h; cases h
    | some sc1 =>
      rw [ha] at h
      refine (iha sc sc1 ha env k hs).bnd fun r k1 hr => ?_
      cases hr2 : r.2 with
      | some v => exact ⟨hr.1, fun h => absurd h (by rw [hr2]; simp)⟩
      | none => exact (ihb sc1 sc' h r.1 k1 (hr.2 hr2)).mono fun r' hr' => ⟨hr.1.trans hr'.1, hr'.2⟩
  | decl kd x ds =>
    intro sc sc' h env k hs
    simp only [namesS] at h
    split at h
    · rename_i hds
      refine (ev hs ds hds k).bnd fun vs k1 _ => (Bd.guard hk).bnd fun _ k1 _ => ?_
      unfold addName at h
      split at h
      · cases h
      · rename_i s sc
        split at h
        · cases h
        · cases h
          obtain ⟨bs, fl⟩ := env
          unfold Scoped at hs
          simp only at hs
          cases hs with
          | @cons b _ bs _ hb hr =>
            cases kd with
            | var =>
              refine ⟨⟨rfl, by simp [addB], ?_, fun _ h => h⟩, fun _ => .cons ?_ hr⟩
              · intro y b' hb' hy
                cases hb'
                exact ⟨_, rfl, List.mem_cons_of_mem _ hy⟩
              · intro y hy
                rcases List.mem_cons.mp hy with rfl | hy
                · exact .inl List.mem_cons_self
                · exact (hb y hy).imp (List.mem_cons_of_mem _) id
            | sig io =>
              refine ⟨⟨rfl, Iff.rfl, fun y b' h hy => ⟨b', h, hy⟩, fun y hy => List.mem_cons_of_mem _ hy⟩, fun _ => .cons ?_ ?_⟩
              · intro y hy
                rcases List.mem_cons.mp hy with rfl | hy
                · exact .inr List.mem_cons_self
                · exact (hb y hy).imp id (List.mem_cons_of_mem _)
              · exact hr.imp fun _ _ h y hy => (h y hy).imp id (List.mem_cons_of_mem _)
            | comp i =>
              refine ⟨⟨rfl, Iff.rfl, fun y b' h hy => ⟨b', h, hy⟩, fun y hy => List.mem_cons_of_mem _ hy⟩, fun _ => .cons ?_ ?_⟩
              · intro y hy
                rcases List.mem_cons.mp hy with rfl | hy
                · exact .inr List.mem_cons_self
                · exact (hb y hy).imp id (List.mem_cons_of_mem _)
              · exact hr.imp fun _ _ h y hy => (h y hy).imp id (List.mem_cons_of_mem _)
    · cases h
  | sub x is op e =>
    intro sc sc' h env k hs
    simp only [namesS] at h
    split at h
    · rename_i hc
      cases h
      simp only [Bool.and_eq_true] at hc
      refine (ev hs is hc.2 k).bnd fun vs k1 _ => (Bd.guard hk).bnd fun _ k1 _ => (ev hs e hc.1.1 k1).oneV.bnd fun v k2 _ => ?_
      cases ha : assignX env x (len is) op v with
      | ok env' => exact ⟨assignX_grow ha, fun _ => (assignX_grow ha).scoped hs⟩
      | error e => exact assignX_bd (hs.has x hc.1.2) ha
    · cases h
  | subp x is s js op e =>
    intro sc sc' h env k hs
    simp only [namesS] at h
    split at h
    · rename_i hc
      cases h
      simp only [Bool.and_eq_true] at hc
      exact (ev hs is hc.1.2 k).bnd fun vs k1 _ => (ev hs js hc.2 k1).bnd fun ws k2 _ => (Bd.guard hk).bnd fun _ k2 _ =>
        (ev hs e hc.1.1.1 k2).oneV.bnd fun v k3 _ =>
        (ask_bd fun w e he => assignP_bd (hs.has x hc.1.1.2) he).bnd fun _ _ _ => same hs
    · cases h
  | eqc l r =>
    intro sc sc' h env k hs
    simp only [namesS] at h
    split at h
    · rename_i hc
      cases h
      simp only [Bool.and_eq_true] at hc
      exact (ev hs l hc.1 k).oneV.bnd fun v k1 _ => (ev hs r hc.2 k1).oneV.bnd fun w k2 _ => (Bd.guard hk).bnd fun _ _ _ => same hs
    · cases h
  | log e =>
    intro sc sc' h env k hs
    simp only [namesS] at h
    split at h
    · rename_i hc
      cases h
      exact (ev hs e hc k).oneV.bnd fun v k1 _ => (Bd.guard hk).bnd fun _ _ _ => same hs
    · cases h
  | asrt e =>
    intro sc sc' h env k hs
    simp only [namesS] at h
    split at h
    · rename_i hc
      cases h
      exact (ev hs e hc k).oneV.bnd fun v k1 _ => (Bd.guard hk).bnd fun _ _ _ => same hs
    · cases h
  | ret e =>
    intro sc sc' h env k hs
    simp only [namesS] at h
    split at h
    · rename_i hc
      cases h
      exact (ev hs e hc k).oneV.bnd fun v k1 _ => (Bd.guard hk).bnd fun _ _ _ => same hs
    · cases h
  | under e =>
    intro sc sc' h env k hs
    simp only [namesS] at h
    split at h
    · rename_i hc
      cases h
      exact (ev hs e hc k).oneV.bnd fun v k1 _ => (Bd.guard hk).bnd fun _ _ _ => same hs
    · cases h
  | ite c a b iha ihb =>
    intro sc sc' h env k hs
    simp only [namesS] at h
    split at h
    · rename_i hc
      cases h
      simp only [Bool.and_eq_true, Option.isSome_iff_exists] at hc
      obtain ⟨⟨hc, sa, ha⟩, sb, hb⟩ := hc
      have blka : ∀ env, Scoped env sc → ∀ k, Bd (blkX (exec P faithful reached o call a) env k) (Yields env sc) :=
        fun env hs k => blkX_bd hs (fun k => iha _ _ ha _ k hs.blk) k
      have blkb : ∀ env, Scoped env sc → ∀ k, Bd (blkX (exec P faithful reached o call b) env k) (Yields env sc) :=
        fun env hs k => blkX_bd hs (fun k => ihb _ _ hb _ k hs.blk) k
      refine (ev hs c hc k).oneV.bnd fun v k1 _ => (Bd.guard hk).bnd fun _ k1 _ => ?_
      split
      · exact blka env hs _
      · split
        · exact blkb env hs _
        · refine (blka env hs _).bnd fun ra k2 hra => ?_
          have hs1 := hra.1.scoped hs
          refine (blkb ra.1 hs1 k2).bnd fun rb k3 hrb => ?_
          have : ∀ v, Yields env sc (rb.1, v) := fun v => ⟨hra.1.trans hrb.1, fun _ => hrb.1.scoped hs1⟩
          split <;> exact this _
    · cases h
  | loop c b ihb =>
    intro sc sc' h env k hs
    simp only [namesS] at h
    split at h
    · rename_i hc
      cases h
      simp only [Bool.and_eq_true, Option.isSome_iff_exists] at hc
      obtain ⟨hc, sb, hb⟩ := hc
      refine (iter_bd (sc := sc) (fun env k hs => (ev hs c hc k).oneV.bnd fun v k1 _ => (Bd.guard hk).bnd fun _ k1 _ =>
        blkX_bd hs (fun k => ihb _ _ hb _ k hs.blk) k1) _ env _ hs).bnd fun r k1 hr => ?_
      cases hr2 : r.2 with
      | some v => exact ⟨hr.1, fun h => absurd h (by rw [hr2]; simp)⟩
      | none =>
        have hs1 := hr.1.scoped hs
        exact (ev hs1 c hc k1).oneV.bnd fun v k2 _ => (Bd.guard hk).bnd fun _ _ _ => hr
    · cases h
  | block b ihb =>
    intro sc sc' h env k hs
    simp only [namesS] at h
    split at h
    · rename_i hc
      cases h
      obtain ⟨sb, hb⟩ := Option.isSome_iff_exists.mp hc
      exact blkX_bd hs (fun k => ihb _ _ hb _ k hs.blk) k
    · cases h

end Bodies

theorem get_in {α : Type} {l : List (Nat × α)} {x : Nat} {a : α} (h : get l x = some a) : (x, a) ∈ l := by
  induction l with
  | nil => cases h
  | cons e l ih =>
    obtain ⟨y, b⟩ := e
    simp only [get] at h
    by_cases hy : y = x
    · rw [if_pos hy] at h
      injection h with h
      subst hy; subst h
      exact List.mem_cons_self
    · rw [if_neg hy] at h
      exact List.mem_cons_of_mem _ (ih h)

theorem params_scoped {ps : List Nat} {ds : List (Option Nat)} (h : ps.length = ds.length) :
    Scoped ⟨[(ps.zip ds).reverse], []⟩ [ps.reverse] := by
  refine .cons ?_ .nil
  intro x hx
  left
  unfold dom
  rw [List.map_reverse, List.map_fst_zip (by omega)]
  exact hx

theorem callX_bd {P : Prog} {faithful : Bool} {reached : List Nat} {o : Nat → Nat} (hn : names P = true) :
    ∀ fuel f vs k, Bd (callX P faithful reached o fuel f vs k) fun _ => True := by
  simp only [names, Bool.and_eq_true, List.all_eq_true, namesD, Option.isSome_iff_exists, decide_eq_true_eq] at hn
  obtain ⟨⟨_, hf⟩, ht⟩ := hn
  intro fuel
  induction fuel with
  | zero => intro f vs k; simp [callX, Bd]
  | succ fuel ih =>
    intro f vs k
    unfold callX
    split
    · rename_i D hD
      obtain ⟨_, sc, hsc⟩ := hf _ (get_in hD)
      split
      · simp [Bd]
      · rename_i hl
        refine (exec_bd ih D.body _ _ hsc _ k (params_scoped (by simpa using hl))).bnd fun r k1 _ => ?_
        split <;> simp [Bd]
    · split
      · simp [Bd]
      · rename_i D hD
        obtain ⟨_, sc, hsc⟩ := ht _ (get_in hD)
        split
        · simp [Bd]
        · rename_i hl
          refine (exec_bd ih D.body _ _ hsc _ k (params_scoped (by simpa using hl))).bnd fun r k1 _ => ?_
          split <;> simp [Bd]

/-- An execution of a program with accepted names finds every name it looks up. -/
theorem run_bd {P : Prog} {faithful : Bool} {reached : List Nat} {o : Nat → Nat} (hn : names P = true) (fuel : Nat) :
    Bd (run P faithful reached o fuel) fun _ => True := by
  have hm : namesE P [] P.main = true := by
    simp only [names, Bool.and_eq_true] at hn; exact hn.1.1
  exact eval_bd (callX_bd hn fuel) (fun x h => by simp at h) P.main hm 0

end Verif.Types
