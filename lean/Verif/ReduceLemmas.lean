import Verif.Reduce
import Verif.TypesPure

/-!
Lemmas on the reduction of types: on well typed bodies the pass reports nothing, plain names get what they are, and a
port gets a signal or the mark of a component without template; the latter only if no direct assignment precedes it
in the text.
-/

set_option linter.unusedVariables false

namespace Verif.Types

/-- Signals declared in a statement. -/
def sigNames : Stmt → List Nat
  | .decl (.sig _) x _ => [x]
  | .seq a b => sigNames a ++ sigNames b
  | .ite _ a b => sigNames a ++ sigNames b
  | .loop _ b => sigNames b
  | .block b => sigNames b
  | _ => []

/-- Components declared in a statement. -/
def compNames : Stmt → List Nat
  | .decl (.comp _) x _ => [x]
  | .seq a b => compNames a ++ compNames b
  | .ite _ a b => compNames a ++ compNames b
  | .loop _ b => compNames b
  | .block b => compNames b
  | _ => []

/-- No `parallel` stands before a `?:` (or a list, which is no operand). -/
def parE : Exp → Bool
  | .num => true
  | .var _ is => parE is
  | .port _ is _ js => parE is && parE js
  | .op l r => parE l && parE r
  | .pre e => parE e
  | .par (.cond _ _ _) => false
  | .par (.cons _ _) => false
  | .par e => parE e
  | .cond c a b => parE c && parE a && parE b
  | .arr es => parE es
  | .uni v n => parE v && parE n
  | .call _ es => parE es
  | .nil => true
  | .cons e es => parE e && parE es

@[inherit_doc parE]
def parS : Stmt → Bool
  | .skip => true
  | .seq a b => parS a && parS b
  | .decl _ _ ds => parE ds
  | .sub _ is _ e => parE is && parE e
  | .subp _ is _ js _ e => parE is && parE js && parE e
  | .eqc l r => parE l && parE r
  | .log e => parE e
  | .asrt e => parE e
  | .ret e => parE e
  | .ite c a b => parE c && parS a && parS b
  | .loop c b => parE c && parS b
  | .block b => parS b
  | .under e => parE e

/-- All components whose ports are read in the expression are in the list. -/
def within (L : List Nat) : Exp → Bool
  | .num => true
  | .var _ is => within L is
  | .port x is _ js => L.contains x && within L is && within L js
  | .op l r => within L l && within L r
  | .pre e => within L e
  | .par e => within L e
  | .cond c a b => within L c && within L a && within L b
  | .arr es => within L es
  | .uni v n => within L v && within L n
  | .call _ es => within L es
  | .nil => true
  | .cons e es => within L e && within L es

/-- A call, after any number of `parallel`. -/
def direct : Exp → Bool
  | .call _ _ => true
  | .par e => direct e
  | _ => false

/-- Each port is used in the text after an assignment of a call to the component, and components are not assigned
otherwise after that; `L` are the names assigned so far. `none` if not. -/
def placed : Stmt → List Nat → Option (List Nat)
  | .skip, L => some L
  | .seq a b, L =>
    match placed a L with
    | none => none
    | some L1 => placed b L1
  | .decl _ x ds, L => if within (L.filter (· ≠ x)) ds then some (L.filter (· ≠ x)) else none
  | .sub x is _ e, L =>
    if within L is && within L e then some (if direct e then x :: L else L.filter (· ≠ x)) else none
  | .subp x is _ js _ e, L => if L.contains x && within L is && within L js && within L e then some L else none
  | .eqc l r, L => if within L l && within L r then some L else none
  | .log e, L => if within L e then some L else none
  | .asrt e, L => if within L e then some L else none
  | .ret e, L => if within L e then some L else none
  | .ite c a b, L =>
    if within L c then
      match placed a L with
      | none => none
      | some L1 => placed b L1
    else none
  | .loop c b, L => if within L c then placed b L else none
  | .block b, L => placed b L
  | .under e, L => if within L e then some L else none

/-- What the code of the witness calculator has to keep: everything but the declarations of signals and components,
the assignments of components, and the assignments to `_`. -/
def strip (C : List Nat) : Stmt → Stmt
  | .seq a b => .seq (strip C a) (strip C b)
  | .decl .var x ds => .decl .var x ds
  | .decl _ _ _ => .skip
  | .sub x is o e => if x ∈ C then .skip else .sub x is o e
  | .ite c a b => .ite c (strip C a) (strip C b)
  | .loop c b => .loop c (strip C b)
  | .block b => .block (strip C b)
  | .under _ => .skip
  | s => s

/-- The statement without the assignments to ports. -/
def noPorts : Stmt → Stmt
  | .seq a b => .seq (noPorts a) (noPorts b)
  | .subp _ _ _ _ _ _ => .skip
  | .ite c a b => .ite c (noPorts a) (noPorts b)
  | .loop c b => .loop c (noPorts b)
  | .block b => .block (noPorts b)
  | s => s

/-- What is written on an occurrence of a symbol is right, or it is a port with the mark of a component without
template. -/
def Fine (A C : List Nat) (r : Rec) : Prop :=
  match r.port with
  | none => (r.x ∈ A ∧ r.x ∉ C ∧ r.red = .sig) ∨ (r.x ∈ C ∧ r.x ∉ A ∧ ∃ u, r.red = .comp u) ∨
      (r.x ∉ A ∧ r.x ∉ C ∧ r.red = .var)
  | some _ => r.x ∈ C ∧ (r.red = .sig ∨ r.red = .comp none)

/-- The tables agree with the table of the type checker. -/
structure RInv (S : Sg) (A C : List Nat) (G : Gm) (sc : List (List Nat)) (env : REnv) : Prop where
  sig : ∀ x ∈ env.sigs, x ∈ A
  comp : ∀ x r, get env.comps x = some r → x ∈ C ∧ (r = .comp none ∨ ∃ u d, r = .comp (some u) ∧ (x, Decl.comp (some u, d)) ∈ S)
  seen : ∀ x, sc.any (·.contains x) = true → x ∈ env.sigs ∨ (get env.comps x).isSome = true ∨ (getB G x).isSome = true

/-- The components of the list have a template. -/
def Given (C : List Nat) (env : REnv) (L : List Nat) : Prop :=
  ∀ x ∈ L, x ∈ C → ∃ u, get env.comps x = some (.comp (some u))

section

variable {P : Prog} {R : Nat → List Nat → Nat → Prop} {Q : Nat → Prop} {S : Sg} {A C : List Nat}

theorem nodup_eq {S : Sg} (hn : (keys S).Nodup) {x : Nat} {a b : Decl (Option Nat × Nat)} (ha : (x, a) ∈ S) (hb : (x, b) ∈ S) :
    a = b := by
  induction S with
  | nil => cases ha
  | cons e S ih =>
    simp only [keys, List.map_cons, List.nodup_cons] at hn
    have key : ∀ {c : Decl (Option Nat × Nat)}, (x, c) ∈ S → x ∈ List.map Prod.fst S := fun h => List.mem_map.mpr ⟨_, h, rfl⟩
    rcases List.mem_cons.mp ha with ha | ha <;> rcases List.mem_cons.mp hb with hb | hb
    · rw [← ha] at hb; injection hb with _ hb; exact hb.symm
    · rw [← ha] at hn; exact absurd (key hb) hn.1
    · rw [← hb] at hn; exact absurd (key ha) hn.1
    · exact ih hn.2 ha hb

/-- The names of the text are in the table with their kind. -/
structure Tab (S : Sg) (A C : List Nat) : Prop where
  nodup : (keys S).Nodup
  sig : ∀ x ∈ A, ∃ io d, (x, Decl.sig io d) ∈ S
  comp : ∀ x ∈ C, ∃ t d, (x, Decl.comp (t, d)) ∈ S

theorem Tab.sig_not (h : Tab S A C) {x io d} (hx : (x, Decl.sig io d) ∈ S) : x ∉ C := by
  intro hc
  obtain ⟨t, d', h'⟩ := h.comp x hc
  cases nodup_eq h.nodup hx h'

theorem Tab.comp_not (h : Tab S A C) {x p} (hx : (x, Decl.comp p) ∈ S) : x ∉ A := by
  intro hc
  obtain ⟨t, d', h'⟩ := h.sig x hc
  cases nodup_eq h.nodup hx h'

theorem Tab.none_not (h : Tab S A C) {x} (hx : x ∉ keys S) : x ∉ A ∧ x ∉ C := by
  constructor
  · intro hc
    obtain ⟨_, _, h'⟩ := h.sig x hc
    exact hx (List.mem_map.mpr ⟨_, h', rfl⟩)
  · intro hc
    obtain ⟨_, _, h'⟩ := h.comp x hc
    exact hx (List.mem_map.mpr ⟨_, h', rfl⟩)

theorem base_var (ht : Tab S A C) {G sc env} (hi : RInv S A C G sc env) {x} (hx : x ∉ keys S) : env.base x = .var := by
  obtain ⟨h1, h2⟩ := ht.none_not hx
  unfold REnv.base
  rw [if_neg fun h => h1 (hi.sig x h)]
  cases h : get env.comps x with
  | none => rfl
  | some r => exact absurd (hi.comp x r h).1 h2

theorem base_sig (ht : Tab S A C) {G sc env} (hi : RInv S A C G sc env) {x io d} (hx : (x, Decl.sig io d) ∈ S)
    (hs : sc.any (·.contains x) = true) (hG : getB G x = none) : x ∈ A ∧ env.base x = .sig := by
  rcases hi.seen x hs with h | h | h
  · exact ⟨hi.sig x h, by unfold REnv.base; rw [if_pos h]⟩
  · obtain ⟨r, hr⟩ := Option.isSome_iff_exists.mp h
    exact absurd (hi.comp x r hr).1 (ht.sig_not hx)
  · rw [hG] at h; cases h

theorem base_comp (ht : Tab S A C) {G sc env} (hi : RInv S A C G sc env) {x t d} (hx : (x, Decl.comp (some t, d)) ∈ S)
    (hs : sc.any (·.contains x) = true) (hG : getB G x = none) : x ∈ C ∧
      get env.comps x = some (env.base x) ∧ (env.base x = .comp none ∨ env.base x = .comp (some t)) := by
  have hn : x ∉ env.sigs := fun h => ht.comp_not hx (hi.sig x h)
  rcases hi.seen x hs with h | h | h
  · exact absurd h hn
  · obtain ⟨r, hr⟩ := Option.isSome_iff_exists.mp h
    obtain ⟨hc, hk⟩ := hi.comp x r hr
    have hb : env.base x = r := by
      unfold REnv.base
      rw [if_neg hn, hr]
    refine ⟨hc, by rw [hb, hr], ?_⟩
    rw [hb]
    rcases hk with h | ⟨u, d', h, h'⟩
    · exact .inl h
    · have := nodup_eq ht.nodup hx h'
      injection this with this
      injection this with this _
      injection this with this
      subst this
      exact .inr h
  · rw [hG] at h; cases h

/-- What the pass does to a well typed expression. -/
structure EOk (A C : List Nat) (env : REnv) (e : Exp) (ts : List FT) (o : Out) : Prop where
  reps : o.reps = []
  fine : ∀ r ∈ o.recs, Fine A C r
  know : ∀ t, ts = [.tpl t] → (o.know = none → (∃ c a b, e = .cond c a b) ∨ ∃ a b, e = .cons a b) ∧
    (∀ k, o.know = some k → k = .comp none ∨ k = .comp (some t)) ∧ (direct e = true → o.know = some (.comp (some t)))
  ports : ∀ L, Given C env L → within L e = true → ∀ r ∈ o.recs, r.port.isSome = true → r.red = .sig

theorem access_ok (ht : Tab S A C) {G sc env} (hi : RInv S A C G sc env) {x t d s D pd}
    (hx : (x, Decl.comp (some t, d)) ∈ S) (hs : sc.any (·.contains x) = true) (hG : getB G x = none)
    (hD : get P.tpls t = some D) (hp : portGet D.body s = some pd) :
    x ∈ C ∧ ∃ r, access P (env.base x) s = .ok r ∧ (r = .sig ∨ r = .comp none) ∧
      ∀ L, Given C env L → x ∈ L → r = .sig := by
  obtain ⟨hc, hg, hb⟩ := base_comp ht hi hx hs hG
  refine ⟨hc, ?_⟩
  rcases hb with hb | hb
  · refine ⟨.comp none, by rw [hb]; rfl, .inr rfl, ?_⟩
    intro L hL hxL
    obtain ⟨u, hu⟩ := hL x hxL hc
    rw [hg, hb] at hu
    injection hu with hu
    cases hu
  · exact ⟨.sig, by rw [hb]; simp only [access, hD, hp, Option.isSome_some, if_true], .inl rfl, fun _ _ _ => rfl⟩

theorem redE_ok (ht : Tab S A C) {G : Gm} {sc : List (List Nat)} {env : REnv} (hi : RInv S A C G sc env) {e : Exp}
    {ts : List FT} (h : HasTy P R Q S G e ts) : namesE P sc e = true → parE e = true →
      EOk A C env e ts (redE P env e) := by
  have two : ∀ {l r : Exp} {tl tr : List FT} {L : List Nat}, EOk A C env l tl (redE P env l) →
      EOk A C env r tr (redE P env r) → Given C env L → within L l = true → within L r = true →
      ∀ q ∈ (redE P env l).recs ++ (redE P env r).recs, q.port.isSome = true → q.red = .sig := by
    intro l r tl tr L h1 h2 hL hl hr q hq
    rcases List.mem_append.mp hq with hq | hq
    · exact h1.ports L hL hl q hq
    · exact h2.ports L hL hr q hq
  have twoF : ∀ {l r : Exp} {tl tr : List FT}, EOk A C env l tl (redE P env l) →
      EOk A C env r tr (redE P env r) → ∀ q ∈ (redE P env l).recs ++ (redE P env r).recs, Fine A C q := by
    intro l r tl tr h1 h2 q hq
    rcases List.mem_append.mp hq with hq | hq
    · exact h1.fine q hq
    · exact h2.fine q hq
  induction h with
  | num => intro hn hp; exact ⟨rfl, (fun r hr => nomatch hr), (fun t h => nomatch h), (fun L _ _ r hr => nomatch hr)⟩
  | vvar x is us d h hs hx hS hd ih =>
    intro hn hp
    simp only [namesE, Bool.and_eq_true] at hn
    have a := ih hn.2 hp
    refine ⟨a.reps, ?_, (fun t h => by injection h with h; cases h), ?_⟩
    · intro r hr
      rcases List.mem_append.mp hr with hr | hr
      · exact a.fine r hr
      · rw [List.mem_singleton] at hr
        subst hr
        obtain ⟨h1, h2⟩ := ht.none_not hS
        exact .inr (.inr ⟨h1, h2, base_var ht hi hS⟩)
    · intro L hL hw r hr hq
      rcases List.mem_append.mp hr with hr | hr
      · exact a.ports L hL hw r hr hq
      · rw [List.mem_singleton] at hr
        subst hr
        cases hq
  | vsig x is us io d h hs hx hG hd ih =>
    intro hn hp
    simp only [namesE, Bool.and_eq_true] at hn
    have a := ih hn.2 hp
    refine ⟨a.reps, ?_, (fun t h => by injection h with h; cases h), ?_⟩
    · intro r hr
      rcases List.mem_append.mp hr with hr | hr
      · exact a.fine r hr
      · rw [List.mem_singleton] at hr
        subst hr
        obtain ⟨h1, h2⟩ := base_sig ht hi hx hn.1 hG
        exact .inl ⟨h1, ht.sig_not hx, h2⟩
    · intro L hL hw r hr hq
      rcases List.mem_append.mp hr with hr | hr
      · exact a.ports L hL hw r hr hq
      · rw [List.mem_singleton] at hr
        subst hr
        cases hq
  | vcomp x is us t d h hs hx hG hd ih =>
    intro hn hp
    simp only [namesE, Bool.and_eq_true] at hn
    have a := ih hn.2 hp
    obtain ⟨hc, hg, hb⟩ := base_comp ht hi hx hn.1 hG
    refine ⟨a.reps, ?_, ?_, ?_⟩
    · intro r hr
      rcases List.mem_append.mp hr with hr | hr
      · exact a.fine r hr
      · rw [List.mem_singleton] at hr
        subst hr
        refine .inr (.inl ⟨hc, ht.comp_not hx, ?_⟩)
        rcases hb with hb | hb
        · exact ⟨_, hb⟩
        · exact ⟨_, hb⟩
    · intro u hu
      injection hu with hu _
      injection hu with hu
      subst hu
      refine ⟨(fun h => nomatch h), ?_, (fun h => nomatch h)⟩
      intro k hk
      injection hk with hk
      subst hk
      exact hb
    · intro L hL hw r hr hq
      rcases List.mem_append.mp hr with hr | hr
      · exact a.ports L hL hw r hr hq
      · rw [List.mem_singleton] at hr
        subst hr
        cases hq
  | port x is us s js vs t d D pd h hs h' hs' hx hG hd hD hpp hj ih ih' =>
    intro hn hp
    simp only [namesE, parE, Bool.and_eq_true] at hn hp
    have a := ih hn.1.2 hp.1
    have b := ih' hn.2 hp.2
    obtain ⟨hc, r, hr, hk, hsig⟩ := access_ok ht hi hx hn.1.1 hG hD hpp
    simp only [redE, hr]
    refine ⟨by simp [a.reps, b.reps], ?_, (fun t h => by injection h with h; cases h), ?_⟩
    · intro q hq
      rcases List.mem_append.mp hq with hq | hq
      · exact twoF a b q hq
      · rw [List.mem_singleton] at hq
        subst hq
        exact ⟨hc, hk⟩
    · intro L hL hw q hq hqp
      simp only [within, Bool.and_eq_true] at hw
      rcases List.mem_append.mp hq with hq | hq
      · exact two a b hL hw.1.2 hw.2 q hq hqp
      · rw [List.mem_singleton] at hq
        subst hq
        exact hsig L hL (by simpa using hw.1.1)
  | op l r hl hr ihl ihr =>
    intro hn hp
    simp only [namesE, parE, Bool.and_eq_true] at hn hp
    have a := ihl hn.1 hp.1
    have b := ihr hn.2 hp.2
    refine ⟨by simp [redE, a.reps, b.reps], twoF a b, (fun t h => by injection h with h; cases h), ?_⟩
    intro L hL hw
    simp only [within, Bool.and_eq_true] at hw
    exact two a b hL hw.1 hw.2
  | pre e h ih =>
    intro hn hp
    have a := ih hn hp
    exact ⟨a.reps, a.fine, (fun t h => by injection h with h; cases h), fun L hL hw => a.ports L hL hw⟩
  | par e t h ih =>
    intro hn hp
    have hpe : parE e = true ∧ (∀ c a b, e ≠ .cond c a b) ∧ ∀ a b, e ≠ .cons a b := by
      cases e with
      | cond c a b => cases hp
      | cons a b => cases hp
      | _ => exact ⟨hp, (fun _ _ _ h => nomatch h), (fun _ _ h => nomatch h)⟩
    have a := ih hn hpe.1
    obtain ⟨k1, k2, k3⟩ := a.know t rfl
    cases hk : (redE P env e).know with
    | none =>
      rcases k1 hk with ⟨c, x, y, he⟩ | ⟨x, y, he⟩
      · exact absurd he (hpe.2.1 c x y)
      · exact absurd he (hpe.2.2 x y)
    | some k =>
      simp only [redE, hk]
      refine ⟨a.reps, a.fine, ?_, fun L hL hw => a.ports L hL hw⟩
      intro u hu
      injection hu with hu _
      injection hu with hu
      subst hu
      refine ⟨(fun h => nomatch h), ?_, ?_⟩
      · intro k' hk'
        injection hk' with hk'
        subst hk'
        exact k2 _ hk
      · intro hd
        rw [← hk]
        exact k3 hd
  | cond c a b t hc ha hb ihc iha ihb =>
    intro hn hp
    simp only [namesE, parE, Bool.and_eq_true] at hn hp
    have x := ihc hn.1.1 hp.1.1
    have y := iha hn.1.2 hp.1.2
    have z := ihb hn.2 hp.2
    refine ⟨by simp [redE, x.reps, y.reps, z.reps], ?_, ?_, ?_⟩
    · intro q hq
      rcases List.mem_append.mp hq with hq | hq
      · exact twoF x y q hq
      · exact z.fine q hq
    · intro u hu
      exact ⟨fun _ => .inl ⟨c, a, b, rfl⟩, (fun k hk => nomatch hk), (fun h => nomatch h)⟩
    · intro L hL hw q hq
      simp only [within, Bool.and_eq_true] at hw
      rcases List.mem_append.mp hq with hq | hq
      · exact two x y hL hw.1.1 hw.1.2 q hq
      · exact z.ports L hL hw.2 q hq
  | arr es us n h hne hall ih =>
    intro hn hp
    have a := ih hn hp
    exact ⟨a.reps, a.fine, (fun t h => by injection h with h; cases h), fun L hL hw => a.ports L hL hw⟩
  | uni v n d hv hn' ihv ihn =>
    intro hn hp
    simp only [namesE, parE, Bool.and_eq_true] at hn hp
    have a := ihv hn.1 hp.1
    have b := ihn hn.2 hp.2
    refine ⟨by simp [redE, a.reps, b.reps], twoF a b, (fun t h => by injection h with h; cases h), ?_⟩
    intro L hL hw
    simp only [within, Bool.and_eq_true] at hw
    exact two a b hL hw.1 hw.2
  | callf f es ds D r h hD hl hR hQ ih =>
    intro hn hp
    have hn' : namesE P sc es = true := by
      simp only [namesE] at hn
      split at hn
      · cases hn
      · simp only [Bool.and_eq_true] at hn; exact hn.2
    have a := ih hn' hp
    exact ⟨a.reps, a.fine, (fun t h => by injection h with h; cases h), fun L hL hw => a.ports L hL hw⟩
  | callt f es ds D r h hf hD hl hR hQ ih =>
    intro hn hp
    have hn' : namesE P sc es = true := by
      simp only [namesE] at hn
      split at hn
      · cases hn
      · simp only [Bool.and_eq_true] at hn; exact hn.2
    have a := ih hn' hp
    refine ⟨a.reps, a.fine, ?_, fun L hL hw => a.ports L hL hw⟩
    intro u hu
    injection hu with hu _
    injection hu with hu
    subst hu
    refine ⟨(fun h => nomatch h), ?_, fun _ => rfl⟩
    intro k hk
    injection hk with hk
    exact .inr hk.symm
  | nil => intro hn hp; exact ⟨rfl, (fun r hr => nomatch hr), (fun t h => nomatch h), (fun L _ _ r hr => nomatch hr)⟩
  | cons e es t us he hes ihe ihes =>
    intro hn hp
    simp only [namesE, parE, Bool.and_eq_true] at hn hp
    have a := ihe hn.1 hp.1
    have b := ihes hn.2 hp.2
    refine ⟨by simp [redE, a.reps, b.reps], twoF a b, ?_, ?_⟩
    · intro u hu
      exact ⟨fun _ => .inr ⟨e, es, rfl⟩, (fun k hk => nomatch hk), (fun h => nomatch h)⟩
    intro L hL hw
    simp only [within, Bool.and_eq_true] at hw
    exact two a b hL hw.1 hw.2

/-! ### Statements -/

theorem get_cons {α : Type} (x y : Nat) (a : α) (l : List (Nat × α)) : get ((x, a) :: l) y = if x = y then some a else get l y := rfl

theorem getB_add {G : Gm} {x d : Nat} : (getB (addB G x d) x).isSome = true := by
  cases G <;> simp [addB, getB, Types.get]

theorem getB_mono {G : Gm} {x y d : Nat} (h : (getB G y).isSome = true) : (getB (addB G x d) y).isSome = true := by
  cases G with
  | nil => cases h
  | cons b G =>
    by_cases hxy : x = y
    · subst hxy; simp [addB, getB, Types.get]
    · simpa [addB, getB, Types.get, hxy] using h

/-- The tables of `env'` have at least the names of `env`. -/
def More (env env' : REnv) : Prop :=
  (∀ x ∈ env.sigs, x ∈ env'.sigs) ∧ ∀ x, (get env.comps x).isSome = true → (get env'.comps x).isSome = true

theorem More.refl (env : REnv) : More env env := ⟨fun _ h => h, fun _ h => h⟩

theorem More.trans {a b c : REnv} (h : More a b) (h' : More b c) : More a c :=
  ⟨fun x hx => h'.1 x (h.1 x hx), fun x hx => h'.2 x (h.2 x hx)⟩

theorem RInv.block {G sc env} (h : RInv S A C G sc env) : RInv S A C ([] :: G) ([] :: sc) env := by
  refine ⟨h.sig, h.comp, ?_⟩
  intro x hx
  simp only [List.any_cons, List.contains_nil, Bool.false_or] at hx
  exact h.seen x hx

theorem RInv.back {G G' sc sc' env env'} (h : RInv S A C G sc env) (h' : RInv S A C G' sc' env') (hm : More env env') :
    RInv S A C G sc env' := by
  refine ⟨h'.sig, h'.comp, ?_⟩
  intro x hx
  rcases h.seen x hx with h | h | h
  · exact .inl (hm.1 x h)
  · exact .inr (.inl (hm.2 x h))
  · exact .inr (.inr h)

/-- What the pass does to a well typed statement. -/
structure SOk (S : Sg) (A C : List Nat) (G' : Gm) (sc' : List (List Nat)) (env : REnv) (s : Stmt) (o : SOut) : Prop where
  inv : RInv S A C G' sc' o.env
  more : More env o.env
  reps : o.reps = []
  fine : ∀ r ∈ o.recs, Fine A C r
  keep : noPorts (rm o.st) = noPorts (strip C s)
  ports : ∀ L L', Given C env L → placed s L = some L' →
    Given C o.env L' ∧ (∀ r ∈ o.recs, r.port.isSome = true → r.red = .sig) ∧ rm o.st = strip C s

theorem declare_more (env : REnv) (k : Kind) (x : Nat) : More env (env.declare k x) := by
  cases k with
  | var => exact .refl _
  | sig io => exact ⟨fun _ h => List.mem_cons_of_mem _ h, fun _ h => h⟩
  | comp t =>
    refine ⟨fun _ h => h, ?_⟩
    intro y h
    simp only [REnv.declare, get_cons]
    split
    · rfl
    · exact h

theorem declare_inv {G sc env} (h : RInv S A C G sc env) (k : Kind) (x : Nat) (ds : Exp)
    (hA : ∀ y ∈ sigNames (.decl k x ds), y ∈ A) (hC : ∀ y ∈ compNames (.decl k x ds), y ∈ C) :
    RInv S A C G sc (env.declare k x) := by
  have hm := declare_more env k x
  refine ⟨?_, ?_, ?_⟩
  · intro y hy
    cases k with
    | sig io =>
      rcases List.mem_cons.mp hy with rfl | hy
      · exact hA _ (by simp [sigNames])
      · exact h.sig y hy
    | _ => exact h.sig y hy
  · intro y r hr
    cases k with
    | comp t =>
      simp only [REnv.declare, get_cons] at hr
      split at hr
      · rename_i hxy
        subst hxy
        injection hr with hr
        exact ⟨hC _ (by simp [compNames]), .inl hr.symm⟩
      · exact h.comp y r hr
    | _ => exact h.comp y r hr
  · intro y hy
    rcases h.seen y hy with h | h | h
    · exact .inl (hm.1 y h)
    · exact .inr (.inl (hm.2 y h))
    · exact .inr (.inr h)

theorem declare_has {env : REnv} {L : List Nat} (h : Given C env L) (k : Kind) (x : Nat) :
    Given C (env.declare k x) (L.filter (· ≠ x)) := by
  intro y hy hc
  simp only [List.mem_filter, decide_eq_true_eq] at hy
  cases k with
  | comp t =>
    simp only [REnv.declare, get_cons]
    rw [if_neg fun h => hy.2 h.symm]
    exact h y hy.1 hc
  | _ => exact h y hy.1 hc

theorem addName_any {sc sc' : List (List Nat)} {x y : Nat} (h : addName sc x = some sc')
    (hy : sc'.any (·.contains y) = true) : y = x ∨ sc.any (·.contains y) = true := by
  unfold addName at h
  split at h
  · cases h
  · split at h
    · cases h
    · injection h with h
      subst h
      simp only [List.any_cons, List.contains_cons, Bool.or_eq_true, beq_iff_eq] at hy ⊢
      tauto

theorem expr_ok {G sc env} {e : Exp} {ts : List FT} {s : Stmt} {st : AStmt} {o : Out} (hi : RInv S A C G sc env) (h : EOk A C env e ts o)
    (hst : rm st = strip C s) (hp : ∀ L L', placed s L = some L' → L' = L ∧ within L e = true) :
    SOk S A C G sc env s ⟨st, env, o.recs, o.reps⟩ := by
  refine ⟨hi, .refl _, h.reps, h.fine, by rw [hst], ?_⟩
  intro L L' hL hpl
  obtain ⟨rfl, hw⟩ := hp L L' hpl
  exact ⟨hL, h.ports _ hL hw, hst⟩

theorem some_if {α : Type} {c : Bool} {a b : α} (h : (if c = true then some a else none) = some b) : c = true ∧ a = b := by
  split at h
  · injection h with h; exact ⟨‹_›, h⟩
  · cases h

theorem redS_ok (ht : Tab S A C) {ret : Option Nat} {port : Nat → Option Nat} {s : Stmt} {G G' : Gm}
    (h : OkS P R Q S ret port s G G') : ∀ sc sc' env, RInv S A C G sc env → namesS P s sc = some sc' → parS s = true →
      (∀ x ∈ sigNames s, x ∈ A) → (∀ x ∈ compNames s, x ∈ C) → SOk S A C G' sc' env s (redS P s env) := by
  have keepEnv : ∀ {env : REnv} {G sc} {x : Nat} {k : Option Red}, RInv S A C G sc env → x ∉ C → env.assign x k = env := by
    intro env G sc x k hi hx
    unfold REnv.assign
    cases hg : get env.comps x with
    | none => rfl
    | some r => exact absurd (hi.comp x r hg).1 hx
  have filt : ∀ {env : REnv} {x : Nat} {L : List Nat} {b : Bool}, Given C env L → x ∉ C →
      Given C env (if b then x :: L else L.filter (· ≠ x)) := by
    intro env x L b hL hx y hy hc
    split at hy
    · rcases List.mem_cons.mp hy with rfl | hy
      · exact absurd hc hx
      · exact hL y hy hc
    · exact hL y (List.mem_filter.mp hy).1 hc
  induction h with
  | skip G =>
    intro sc sc' env hi hn hp hA hC
    injection hn with hn
    subst hn
    exact ⟨hi, .refl _, rfl, (fun r hr => nomatch hr), rfl, fun L L' hL hpl => by
      injection hpl with hpl; subst hpl; exact ⟨hL, (fun r hr => nomatch hr), rfl⟩⟩
  | seq a b G1 G2 G3 ha hb iha ihb =>
    intro sc sc' env hi hn hp hA hC
    simp only [namesS] at hn
    split at hn
    · cases hn
    · rename_i sc1 h1
      simp only [parS, Bool.and_eq_true] at hp
      have x := iha sc sc1 env hi h1 hp.1 (fun y hy => hA y (by simp [sigNames, hy])) (fun y hy => hC y (by simp [compNames, hy]))
      have y := ihb sc1 sc' _ x.inv hn hp.2 (fun y hy => hA y (by simp [sigNames, hy])) (fun y hy => hC y (by simp [compNames, hy]))
      refine ⟨y.inv, x.more.trans y.more, by simp [redS, x.reps, y.reps], ?_, ?_, ?_⟩
      · intro r hr
        rcases List.mem_append.mp hr with hr | hr
        · exact x.fine r hr
        · exact y.fine r hr
      · simp only [redS, rm, strip, noPorts, x.keep, y.keep]
      · intro L L' hL hpl
        simp only [placed] at hpl
        split at hpl
        · cases hpl
        · rename_i L1 hL1
          obtain ⟨p1, p2, p3⟩ := x.ports L L1 hL hL1
          obtain ⟨q1, q2, q3⟩ := y.ports L1 L' p1 hpl
          refine ⟨q1, ?_, by simp only [redS, rm, strip, p3, q3]⟩
          intro r hr
          rcases List.mem_append.mp hr with hr | hr
          · exact p2 r hr
          · exact q2 r hr
  | dvar x ds ts G h hs =>
    intro sc sc' env hi hn hp hA hC
    obtain ⟨hnd, hn⟩ : namesE P sc ds = true ∧ addName sc x = some sc' := by
      simp only [namesS] at hn
      split at hn
      · exact ⟨‹_›, hn⟩
      · cases hn
    have a := redE_ok ht hi h hnd hp
    refine ⟨⟨hi.sig, hi.comp, ?_⟩, .refl _, a.reps, a.fine, rfl, ?_⟩
    · intro y hy
      rcases addName_any hn hy with rfl | hy
      · exact .inr (.inr getB_add)
      · rcases hi.seen y hy with h | h | h
        · exact .inl h
        · exact .inr (.inl h)
        · exact .inr (.inr (getB_mono h))
    · intro L L' hL hpl
      obtain ⟨hw, rfl⟩ := some_if hpl
      have := declare_has hL .var x
      exact ⟨this, a.ports _ this hw, rfl⟩
  | dsig io x ds ts G h hs hx hpt =>
    intro sc sc' env hi hn hp hA hC
    obtain ⟨hnd, hn⟩ : namesE P sc ds = true ∧ addName sc x = some sc' := by
      simp only [namesS] at hn
      split at hn
      · exact ⟨‹_›, hn⟩
      · cases hn
    have hi' := declare_inv hi (.sig io) x ds hA hC
    have a := redE_ok ht hi' h hnd hp
    refine ⟨⟨hi'.sig, hi'.comp, ?_⟩, declare_more _ _ _, a.reps, a.fine, rfl, ?_⟩
    · intro y hy
      rcases addName_any hn hy with rfl | hy
      · exact .inl List.mem_cons_self
      · exact hi'.seen y hy
    · intro L L' hL hpl
      obtain ⟨hw, rfl⟩ := some_if hpl
      have := declare_has hL (.sig io) x
      exact ⟨this, a.ports _ this hw, rfl⟩
  | dcomp i x ds ts t G h hs hx =>
    intro sc sc' env hi hn hp hA hC
    obtain ⟨hnd, hn⟩ : namesE P sc ds = true ∧ addName sc x = some sc' := by
      simp only [namesS] at hn
      split at hn
      · exact ⟨‹_›, hn⟩
      · cases hn
    have hi' := declare_inv hi (.comp i) x ds hA hC
    have a := redE_ok ht hi' h hnd hp
    refine ⟨⟨hi'.sig, hi'.comp, ?_⟩, declare_more _ _ _, a.reps, a.fine, rfl, ?_⟩
    · intro y hy
      rcases addName_any hn hy with rfl | hy
      · exact .inr (.inl (by simp [redS, REnv.declare, get_cons]))
      · exact hi'.seen y hy
    · intro L L' hL hpl
      obtain ⟨hw, rfl⟩ := some_if hpl
      have := declare_has hL (.comp i) x
      exact ⟨this, a.ports _ this hw, rfl⟩
  | svar x is ts e d G h hs hx hS hd he =>
    intro sc sc' env hi hn hp hA hC
    replace hn := some_if hn
    obtain ⟨hn, rfl⟩ := hn
    simp only [parS, Bool.and_eq_true] at hn hp
    have a := redE_ok ht hi h hn.2 hp.1
    have b := redE_ok ht hi he hn.1.1 hp.2
    obtain ⟨nA, nC⟩ := ht.none_not hS
    have hb := base_var ht hi hS
    simp only [redS, keepEnv hi nC, hb]
    refine ⟨hi, .refl _, by simp [a.reps, b.reps], ?_, by simp [rm, removed, strip, nC], ?_⟩
    · intro r hr
      simp only [List.mem_append, List.mem_singleton] at hr
      rcases hr with (hr | hr) | hr
      · exact a.fine r hr
      · subst hr; exact .inr (.inr ⟨nA, nC, rfl⟩)
      · exact b.fine r hr
    · intro L L' hL hpl
      obtain ⟨hw, rfl⟩ := some_if hpl
      simp only [Bool.and_eq_true] at hw
      refine ⟨filt hL nC, ?_, by simp [rm, removed, strip, nC]⟩
      intro r hr hq
      simp only [List.mem_append, List.mem_singleton] at hr
      rcases hr with (hr | hr) | hr
      · exact a.ports _ hL hw.1 r hr hq
      · subst hr; cases hq
      · exact b.ports _ hL hw.2 r hr hq
  | ssig x is ts o e io d G h hs hx hG ho hd he =>
    intro sc sc' env hi hn hp hA hC
    replace hn := some_if hn
    obtain ⟨hn, rfl⟩ := hn
    simp only [parS, Bool.and_eq_true] at hn hp
    have a := redE_ok ht hi h hn.2 hp.1
    have b := redE_ok ht hi he hn.1.1 hp.2
    have nC := ht.sig_not hx
    obtain ⟨hxA, hb⟩ := base_sig ht hi hx hn.1.2 hG
    simp only [redS, keepEnv hi nC, hb]
    refine ⟨hi, .refl _, by simp [a.reps, b.reps], ?_, by simp [rm, removed, strip, nC], ?_⟩
    · intro r hr
      simp only [List.mem_append, List.mem_singleton] at hr
      rcases hr with (hr | hr) | hr
      · exact a.fine r hr
      · subst hr; exact .inl ⟨hxA, nC, rfl⟩
      · exact b.fine r hr
    · intro L L' hL hpl
      obtain ⟨hw, rfl⟩ := some_if hpl
      simp only [Bool.and_eq_true] at hw
      refine ⟨filt hL nC, ?_, by simp [rm, removed, strip, nC]⟩
      intro r hr hq
      simp only [List.mem_append, List.mem_singleton] at hr
      rcases hr with (hr | hr) | hr
      · exact a.ports _ hL hw.1 r hr hq
      · subst hr; cases hq
      · exact b.ports _ hL hw.2 r hr hq
  | scomp x is ts e t d G h hs hx hG hd he =>
    intro sc sc' env hi hn hp hA hC
    replace hn := some_if hn
    obtain ⟨hn, rfl⟩ := hn
    simp only [parS, Bool.and_eq_true] at hn hp
    have a := redE_ok ht hi h hn.2 hp.1
    have b := redE_ok ht hi he hn.1.1 hp.2
    obtain ⟨hc, hg, hb⟩ := base_comp ht hi hx hn.1.2 hG
    obtain ⟨k1, k2, k3⟩ := b.know t rfl
    have hrm : removed (some (env.base x)) = true := by
      rcases hb with hb | hb <;> rw [hb] <;> rfl
    have hget : ∀ y, get (env.assign x (redE P env e).know).comps y =
        if x = y then some ((redE P env e).know.getD (env.base x)) else get env.comps y := by
      intro y
      unfold REnv.assign
      rw [hg]
      cases (redE P env e).know with
      | none =>
        by_cases hxy : x = y
        · subst hxy; rw [if_pos rfl]; exact hg
        · rw [if_neg hxy]
      | some k => exact get_cons _ _ _ _
    have hsigs : (env.assign x (redE P env e).know).sigs = env.sigs := by
      unfold REnv.assign; split <;> rfl
    have hmore : More env (env.assign x (redE P env e).know) := by
      refine ⟨fun y hy => by rw [hsigs]; exact hy, ?_⟩
      intro y hy
      rw [hget]
      split
      · rfl
      · exact hy
    refine ⟨⟨?_, ?_, ?_⟩, hmore, by simp [redS, a.reps, b.reps], ?_, by simp [redS, rm, hrm, strip, hc], ?_⟩
    · intro y hy
      exact hi.sig y (hsigs ▸ hy)
    · intro y r hr
      replace hr := (hget y).symm.trans hr
      split at hr
      · rename_i hxy
        subst hxy
        refine ⟨hc, ?_⟩
        injection hr with hr
        subst hr
        have : (redE P env e).know.getD (env.base x) = .comp none ∨ (redE P env e).know.getD (env.base x) = .comp (some t) := by
          cases hk : (redE P env e).know with
          | none => exact hb
          | some k => exact k2 k hk
        rcases this with h | h
        · exact .inl h
        · exact .inr ⟨t, d, h, hx⟩
      · exact hi.comp y r hr
    · intro y hy
      rcases hi.seen y hy with h | h | h
      · exact .inl (hmore.1 y h)
      · exact .inr (.inl (hmore.2 y h))
      · exact .inr (.inr h)
    · intro r hr
      simp only [redS, List.mem_append, List.mem_singleton] at hr
      rcases hr with (hr | hr) | hr
      · exact a.fine r hr
      · subst hr
        refine .inr (.inl ⟨hc, ht.comp_not hx, ?_⟩)
        rcases hb with hb | hb
        · exact ⟨_, hb⟩
        · exact ⟨_, hb⟩
      · exact b.fine r hr
    · intro L L' hL hpl
      obtain ⟨hw, rfl⟩ := some_if hpl
      simp only [Bool.and_eq_true] at hw
      refine ⟨?_, ?_, by simp [redS, rm, hrm, strip, hc]⟩
      · intro y hy hyc
        show ∃ u, get (env.assign x (redE P env e).know).comps y = _
        rw [hget]
        by_cases hxy : x = y
        · subst hxy
          rw [if_pos rfl]
          split at hy
          · rename_i hdir
            rw [k3 hdir]
            exact ⟨t, rfl⟩
          · simp at hy
        · rw [if_neg hxy]
          split at hy
          · rcases List.mem_cons.mp hy with h | hy
            · exact absurd h.symm hxy
            · exact hL y hy hyc
          · exact hL y (List.mem_filter.mp hy).1 hyc
      · intro r hr hq
        simp only [redS, List.mem_append, List.mem_singleton] at hr
        rcases hr with (hr | hr) | hr
        · exact a.ports _ hL hw.1 r hr hq
        · subst hr; cases hq
        · exact b.ports _ hL hw.2 r hr hq
  | subp x is ts s js us o e t d D pd G h hs h' hs' hx hG hd hD hpp ho hj he =>
    intro sc sc' env hi hn hp hA hC
    replace hn := some_if hn
    obtain ⟨hn, rfl⟩ := hn
    simp only [parS, Bool.and_eq_true] at hn hp
    have a := redE_ok ht hi h hn.1.2 hp.1.1
    have c := redE_ok ht hi h' hn.2 hp.1.2
    have b := redE_ok ht hi he hn.1.1.1 hp.2
    obtain ⟨hc, r, hr, hk, hsig⟩ := access_ok ht hi hx hn.1.1.2 hG hD hpp
    simp only [redS, hr]
    refine ⟨hi, .refl _, by simp [a.reps, b.reps, c.reps], ?_, ?_, ?_⟩
    · intro q hq
      simp only [List.mem_append, List.mem_singleton] at hq
      rcases hq with ((hq | hq) | hq) | hq
      · exact a.fine q hq
      · exact c.fine q hq
      · subst hq; exact ⟨hc, hk⟩
      · exact b.fine q hq
    · simp only [rm, strip]
      split <;> rfl
    · intro L L' hL hpl
      obtain ⟨hw, rfl⟩ := some_if hpl
      simp only [Bool.and_eq_true] at hw
      have hrs := hsig L hL (by simpa using hw.1.1.1)
      subst hrs
      refine ⟨hL, ?_, rfl⟩
      intro q hq hqp
      simp only [List.mem_append, List.mem_singleton] at hq
      rcases hq with ((hq | hq) | hq) | hq
      · exact a.ports _ hL hw.1.1.2 q hq hqp
      · exact c.ports _ hL hw.1.2 q hq hqp
      · subst hq; rfl
      · exact b.ports _ hL hw.2 q hq hqp
  | eqc l r n G hl hr =>
    intro sc sc' env hi hn hp hA hC
    replace hn := some_if hn
    obtain ⟨hn, rfl⟩ := hn
    simp only [parS, Bool.and_eq_true] at hn hp
    have a := redE_ok ht hi hl hn.1 hp.1
    have b := redE_ok ht hi hr hn.2 hp.2
    refine ⟨hi, .refl _, by simp [redS, a.reps, b.reps], ?_, rfl, ?_⟩
    · intro q hq
      rcases List.mem_append.mp hq with hq | hq
      · exact a.fine q hq
      · exact b.fine q hq
    · intro L L' hL hpl
      obtain ⟨hw, rfl⟩ := some_if hpl
      simp only [Bool.and_eq_true] at hw
      refine ⟨hL, ?_, rfl⟩
      intro q hq
      rcases List.mem_append.mp hq with hq | hq
      · exact a.ports _ hL hw.1 q hq
      · exact b.ports _ hL hw.2 q hq
  | log e G h =>
    intro sc sc' env hi hn hp hA hC
    replace hn := some_if hn
    obtain ⟨hn, rfl⟩ := hn
    exact expr_ok hi (redE_ok ht hi h hn hp) rfl fun L L' h => ⟨(some_if h).2.symm, (some_if h).1⟩
  | asrt e G h =>
    intro sc sc' env hi hn hp hA hC
    replace hn := some_if hn
    obtain ⟨hn, rfl⟩ := hn
    exact expr_ok hi (redE_ok ht hi h hn hp) rfl fun L L' h => ⟨(some_if h).2.symm, (some_if h).1⟩
  | ret e n G h hr =>
    intro sc sc' env hi hn hp hA hC
    replace hn := some_if hn
    obtain ⟨hn, rfl⟩ := hn
    exact expr_ok hi (redE_ok ht hi h hn hp) rfl fun L L' h => ⟨(some_if h).2.symm, (some_if h).1⟩
  | under e n G h =>
    intro sc sc' env hi hn hp hA hC
    replace hn := some_if hn
    obtain ⟨hn, rfl⟩ := hn
    exact expr_ok hi (redE_ok ht hi h hn hp) rfl fun L L' h => ⟨(some_if h).2.symm, (some_if h).1⟩
  | ite c a b G Ga Gb hc ha hb iha ihb =>
    intro sc sc' env hi hn hp hA hC
    replace hn := some_if hn
    obtain ⟨hn, rfl⟩ := hn
    simp only [parS, Bool.and_eq_true, Option.isSome_iff_exists] at hn hp
    obtain ⟨⟨hnc, sa, hna⟩, sb, hnb⟩ := hn
    have z := redE_ok ht hi hc hnc hp.1.1
    have x := iha _ _ env hi.block hna hp.1.2 (fun y hy => hA y (by simp [sigNames, hy])) (fun y hy => hC y (by simp [compNames, hy]))
    have hi1 := hi.back x.inv x.more
    have y := ihb _ _ _ hi1.block hnb hp.2 (fun y hy => hA y (by simp [sigNames, hy])) (fun y hy => hC y (by simp [compNames, hy]))
    refine ⟨hi1.back y.inv y.more, x.more.trans y.more, by simp [redS, x.reps, y.reps, z.reps], ?_, ?_, ?_⟩
    · intro r hr
      simp only [redS, List.mem_append] at hr
      rcases hr with (hr | hr) | hr
      · exact z.fine r hr
      · exact x.fine r hr
      · exact y.fine r hr
    · simp only [redS, rm, strip, noPorts, x.keep, y.keep]
    · intro L L' hL hpl
      simp only [placed] at hpl
      split at hpl
      · rename_i hw
        split at hpl
        · cases hpl
        · rename_i L1 hL1
          obtain ⟨p1, p2, p3⟩ := x.ports L L1 hL hL1
          obtain ⟨q1, q2, q3⟩ := y.ports L1 L' p1 hpl
          refine ⟨q1, ?_, by simp only [redS, rm, strip, p3, q3]⟩
          intro r hr
          simp only [redS, List.mem_append] at hr
          rcases hr with (hr | hr) | hr
          · exact z.ports _ hL hw r hr
          · exact p2 r hr
          · exact q2 r hr
      · cases hpl
  | loop c b G Gb hc hb ih =>
    intro sc sc' env hi hn hp hA hC
    replace hn := some_if hn
    obtain ⟨hn, rfl⟩ := hn
    simp only [parS, Bool.and_eq_true, Option.isSome_iff_exists] at hn hp
    obtain ⟨hnc, sb, hnb⟩ := hn
    have z := redE_ok ht hi hc hnc hp.1
    have x := ih _ _ env hi.block hnb hp.2 hA hC
    refine ⟨hi.back x.inv x.more, x.more, by simp [redS, x.reps, z.reps], ?_, ?_, ?_⟩
    · intro r hr
      simp only [redS, List.mem_append] at hr
      rcases hr with hr | hr
      · exact z.fine r hr
      · exact x.fine r hr
    · simp only [redS, rm, strip, noPorts, x.keep]
    · intro L L' hL hpl
      simp only [placed] at hpl
      split at hpl
      · rename_i hw
        obtain ⟨p1, p2, p3⟩ := x.ports L L' hL hpl
        refine ⟨p1, ?_, by simp only [redS, rm, strip, p3]⟩
        intro r hr
        simp only [redS, List.mem_append] at hr
        rcases hr with hr | hr
        · exact z.ports _ hL hw r hr
        · exact p2 r hr
      · cases hpl
  | block b G Gb hb ih =>
    intro sc sc' env hi hn hp hA hC
    replace hn := some_if hn
    obtain ⟨hn, rfl⟩ := hn
    obtain ⟨sb, hnb⟩ := Option.isSome_iff_exists.mp hn
    have x := ih _ _ env hi.block hnb hp hA hC
    refine ⟨hi.back x.inv x.more, x.more, x.reps, x.fine, ?_, ?_⟩
    · simp only [redS, rm, strip, noPorts, x.keep]
    · intro L L' hL hpl
      obtain ⟨p1, p2, p3⟩ := x.ports L L' hL hpl
      exact ⟨p1, p2, by simp only [redS, rm, strip, p3]⟩

/-- Declared names are in the table. -/
theorem ok_tab {ret : Option Nat} {port : Nat → Option Nat} {s : Stmt} {G G' : Gm} (h : OkS P R Q S ret port s G G') :
    (∀ x ∈ sigNames s, ∃ io d, (x, Decl.sig io d) ∈ S) ∧ ∀ x ∈ compNames s, ∃ t d, (x, Decl.comp (t, d)) ∈ S := by
  induction h with
  | seq a b G1 G2 G3 ha hb iha ihb =>
    refine ⟨fun x hx => ?_, fun x hx => ?_⟩
    · rcases List.mem_append.mp hx with hx | hx
      · exact iha.1 x hx
      · exact ihb.1 x hx
    · rcases List.mem_append.mp hx with hx | hx
      · exact iha.2 x hx
      · exact ihb.2 x hx
  | ite c a b G Ga Gb hc ha hb iha ihb =>
    refine ⟨fun x hx => ?_, fun x hx => ?_⟩
    · rcases List.mem_append.mp hx with hx | hx
      · exact iha.1 x hx
      · exact ihb.1 x hx
    · rcases List.mem_append.mp hx with hx | hx
      · exact iha.2 x hx
      · exact ihb.2 x hx
  | loop c b G Gb hc hb ih => exact ih
  | block b G Gb hb ih => exact ih
  | dsig io x ds ts G h hs hx hp =>
    refine ⟨fun y hy => ?_, (fun y hy => nomatch hy)⟩
    rw [List.mem_singleton.mp hy]
    exact ⟨_, _, hx⟩
  | dcomp i x ds ts t G h hs hx =>
    refine ⟨(fun y hy => nomatch hy), fun y hy => ?_⟩
    rw [List.mem_singleton.mp hy]
    exact ⟨_, _, hx⟩
  | _ => exact ⟨(fun y hy => nomatch hy), (fun y hy => nomatch hy)⟩

end

end Verif.Types
