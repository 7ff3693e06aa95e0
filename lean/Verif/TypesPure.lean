import Verif.TypesExec

/-!
A typing relation without state, and its soundness for the executions of `Verif.TypesExec`. The type
checker is shown to establish it in `Verif.TypesCheck`.
-/

set_option linter.unusedVariables false
set_option linter.unusedSimpArgs false

namespace Verif.Types

/-- Names of the entries. -/
abbrev keys {α : Type} (l : List (Nat × α)) : List Nat := l.map Prod.fst

/-- Typings of signals and components. -/
abbrev Sg := Flat (Option Nat × Nat)

/-- Typings of variables. -/
abbrev Gm := List (List (Nat × Nat))

section Rel

variable (P : Prog) (R : Nat → List Nat → Nat → Prop) (Q : Nat → Prop) (S : Sg) (G : Gm)

/-- Types of expressions, with the variables `G`, the signals and components `S`, the instances `R` of
definitions and the definitions `Q` left in the program. -/
inductive HasTy : Exp → List FT → Prop where
  | num : HasTy .num [.ar 0]
  | vvar (x is ts d) (h : HasTy is ts) (hs : ts.all FT.scalar = true) (hx : getB G x = some d) (hS : x ∉ keys S)
      (hd : len is ≤ d) : HasTy (.var x is) [.ar (d - len is)]
  | vsig (x is ts io d) (h : HasTy is ts) (hs : ts.all FT.scalar = true) (hx : (x, Decl.sig io d) ∈ S)
      (hG : getB G x = none) (hd : len is ≤ d) : HasTy (.var x is) [.ar (d - len is)]
  | vcomp (x is ts t d) (h : HasTy is ts) (hs : ts.all FT.scalar = true) (hx : (x, Decl.comp (some t, d)) ∈ S)
      (hG : getB G x = none) (hd : len is = d) : HasTy (.var x is) [.tpl t]
  | port (x is ts s js us t d D pd) (h : HasTy is ts) (hs : ts.all FT.scalar = true) (h' : HasTy js us)
      (hs' : us.all FT.scalar = true) (hx : (x, Decl.comp (some t, d)) ∈ S) (hG : getB G x = none)
      (hd : len is = d) (hD : get P.tpls t = some D) (hp : portGet D.body s = some pd) (hj : len js ≤ pd) :
      HasTy (.port x is s js) [.ar (pd - len js)]
  | op (l r) (hl : HasTy l [.ar 0]) (hr : HasTy r [.ar 0]) : HasTy (.op l r) [.ar 0]
  | pre (e) (h : HasTy e [.ar 0]) : HasTy (.pre e) [.ar 0]
  | par (e t) (h : HasTy e [.tpl t]) : HasTy (.par e) [.tpl t]
  | cond (c a b t) (hc : HasTy c [.ar 0]) (ha : HasTy a [t]) (hb : HasTy b [t]) : HasTy (.cond c a b) [t]
  | arr (es ts n) (h : HasTy es ts) (hne : ts ≠ []) (hall : ∀ t ∈ ts, t = .ar n) : HasTy (.arr es) [.ar (n + 1)]
  | uni (v n d) (hv : HasTy v [.ar d]) (hn : HasTy n [.ar 0]) : HasTy (.uni v n) [.ar (d + 1)]
  | callf (f es ds D r) (h : HasTy es (ds.map .ar)) (hD : get P.fns f = some D) (hl : D.params.length = ds.length)
      (hR : R f ds r) (hQ : Q f) : HasTy (.call f es) [.ar r]
  | callt (f es ds D r) (h : HasTy es (ds.map .ar)) (hf : get P.fns f = none) (hD : get P.tpls f = some D)
      (hl : D.params.length = ds.length) (hR : R f ds r) (hQ : Q f) : HasTy (.call f es) [.tpl f]
  | nil : HasTy .nil []
  | cons (e es t ts) (he : HasTy e [t]) (hes : HasTy es ts) : HasTy (.cons e es) (t :: ts)

end Rel

/-- Well typed statements, with the variables before and after; `ret` is the number of dimensions of
returned values, `port` the dimensions of the ports of the template. -/
inductive OkS (P : Prog) (R : Nat → List Nat → Nat → Prop) (Q : Nat → Prop) (S : Sg) (ret : Option Nat)
    (port : Nat → Option Nat) : Stmt → Gm → Gm → Prop where
  | skip (G) : OkS P R Q S ret port .skip G G
  | seq (a b G1 G2 G3) (ha : OkS P R Q S ret port a G1 G2) (hb : OkS P R Q S ret port b G2 G3) :
      OkS P R Q S ret port (.seq a b) G1 G3
  | dvar (x ds ts G) (h : HasTy P R Q S G ds ts) (hs : ts.all FT.scalar = true) :
      OkS P R Q S ret port (.decl .var x ds) G (addB G x (len ds))
  | dsig (io x ds ts G) (h : HasTy P R Q S G ds ts) (hs : ts.all FT.scalar = true)
      (hx : (x, Decl.sig io (len ds)) ∈ S) (hp : io = .inter ∨ port x = some (len ds)) :
      OkS P R Q S ret port (.decl (.sig io) x ds) G G
  | dcomp (i x ds ts t G) (h : HasTy P R Q S G ds ts) (hs : ts.all FT.scalar = true)
      (hx : (x, Decl.comp (t, len ds)) ∈ S) : OkS P R Q S ret port (.decl (.comp i) x ds) G G
  | svar (x is ts e d G) (h : HasTy P R Q S G is ts) (hs : ts.all FT.scalar = true) (hx : getB G x = some d)
      (hS : x ∉ keys S) (hd : len is ≤ d) (he : HasTy P R Q S G e [.ar (d - len is)]) :
      OkS P R Q S ret port (.sub x is .var e) G G
  | ssig (x is ts o e io d G) (h : HasTy P R Q S G is ts) (hs : ts.all FT.scalar = true)
      (hx : (x, Decl.sig io d) ∈ S) (hG : getB G x = none) (ho : o ≠ .var) (hd : len is ≤ d)
      (he : HasTy P R Q S G e [.ar (d - len is)]) : OkS P R Q S ret port (.sub x is o e) G G
  | scomp (x is ts e t d G) (h : HasTy P R Q S G is ts) (hs : ts.all FT.scalar = true)
      (hx : (x, Decl.comp (some t, d)) ∈ S) (hG : getB G x = none) (hd : len is = d)
      (he : HasTy P R Q S G e [.tpl t]) : OkS P R Q S ret port (.sub x is .var e) G G
  | subp (x is ts s js us o e t d D pd G) (h : HasTy P R Q S G is ts) (hs : ts.all FT.scalar = true)
      (h' : HasTy P R Q S G js us) (hs' : us.all FT.scalar = true) (hx : (x, Decl.comp (some t, d)) ∈ S)
      (hG : getB G x = none) (hd : len is = d) (hD : get P.tpls t = some D) (hp : portGet D.body s = some pd)
      (ho : o ≠ .var) (hj : len js ≤ pd) (he : HasTy P R Q S G e [.ar (pd - len js)]) :
      OkS P R Q S ret port (.subp x is s js o e) G G
  | eqc (l r n G) (hl : HasTy P R Q S G l [.ar n]) (hr : HasTy P R Q S G r [.ar n]) :
      OkS P R Q S ret port (.eqc l r) G G
  | log (e G) (h : HasTy P R Q S G e [.ar 0]) : OkS P R Q S ret port (.log e) G G
  | asrt (e G) (h : HasTy P R Q S G e [.ar 0]) : OkS P R Q S ret port (.asrt e) G G
  | ret (e n G) (h : HasTy P R Q S G e [.ar n]) (hr : ret = some n) : OkS P R Q S ret port (.ret e) G G
  | ite (c a b G Ga Gb) (hc : HasTy P R Q S G c [.ar 0]) (ha : OkS P R Q S ret port a ([] :: G) Ga)
      (hb : OkS P R Q S ret port b ([] :: G) Gb) : OkS P R Q S ret port (.ite c a b) G G
  | loop (c b G Gb) (hc : HasTy P R Q S G c [.ar 0]) (hb : OkS P R Q S ret port b ([] :: G) Gb) :
      OkS P R Q S ret port (.loop c b) G G
  | block (b G Gb) (hb : OkS P R Q S ret port b ([] :: G) Gb) : OkS P R Q S ret port (.block b) G G
  | under (e n G) (h : HasTy P R Q S G e [.ar n]) : OkS P R Q S ret port (.under e) G G

/-- The body of a definition is well typed for parameters of the given dimensions. -/
def BodyOk (P : Prog) (R : Nat → List Nat → Nat → Prop) (Q : Nat → Prop) (f : Nat) (ds : List Nat) (r : Nat) :
    Prop :=
  match get P.fns f with
  | some D => ∃ G, OkS P R Q [] (some r) (fun _ => none) D.body [(D.params.zip ds).reverse] G
  | none => ∀ D, get P.tpls f = some D →
      ∃ S G, (keys S).Nodup ∧ OkS P R Q S none (portGet D.body) D.body [(D.params.zip ds).reverse] G

/-- All instances are well typed. -/
def Closed (P : Prog) (R : Nat → List Nat → Nat → Prop) (Q : Nat → Prop) : Prop :=
  ∀ f ds r, R f ds r → BodyOk P R Q f ds r

/-! ### Soundness -/

/-- The execution does not end in an error of kind or by a missing definition. -/
def Safe {α : Type} (r : Res α) (p : α → Prop) : Prop :=
  match r with
  | .ok (a, _) => p a
  | .error e => e ≠ .kind ∧ e ≠ .callee

theorem Safe.bnd {α β : Type} {r : Res α} {f : α → Nat → Res β} {p : α → Prop} {q : β → Prop}
    (h : Safe r p) (hf : ∀ a k, p a → Safe (f a k) q) : Safe (Types.bnd r f) q := by
  unfold Types.bnd
  rcases r with e | ⟨a, k⟩
  · exact h
  · exact hf a k h

theorem Safe.mono {α : Type} {r : Res α} {p q : α → Prop} (h : Safe r p) (hpq : ∀ a, p a → q a) : Safe r q := by
  unfold Safe at *
  rcases r with e | ⟨a, k⟩
  · exact h
  · exact hpq a h

theorem Safe.ok {α : Type} {a : α} {k : Nat} {p : α → Prop} (h : p a) : Safe (.ok (a, k)) p := h

theorem Safe.guard {b : Bool} {e : Err} {k : Nat} (h : b = true) : Safe (Types.guard b e k) (fun _ => True) := by
  unfold Types.guard; rw [if_pos h]; trivial

/-- The same without the position of the oracle. -/
def SafeX {α : Type} (r : Except Err α) (p : α → Prop) : Prop :=
  match r with
  | .ok a => p a
  | .error e => e ≠ .kind ∧ e ≠ .callee

theorem Safe.ask {α : Type} {o : Nat → Nat} {k : Nat} {f : Nat → Except Err α} {p : α → Prop}
    (h : ∀ w, SafeX (f w) p) : Safe (Types.ask o k f) p := by
  unfold Types.ask
  have := h (o k)
  split <;> simp_all [Safe, SafeX]

/-- The ports of the instance have the dimensions of the text of the template. -/
def InstOk (P : Prog) (u : Nat) (ports : List (Nat × Nat)) : Prop :=
  ∃ D, get P.tpls u = some D ∧ ∀ s n, get ports s = some n → portGet D.body s = some n

/-- The value has the type. -/
def VOk (P : Prog) : Val → FT → Prop
  | .lost, _ => True
  | .ar n, t => t = .ar n
  | .tp u ports, t => t = .tpl u ∧ InstOk P u ports

/-- The signals and components of the environment have their types. -/
def FlatOk (P : Prog) (S : Sg) (port : Nat → Option Nat) (fl : Flat (Nat × List (Nat × List (Nat × Nat)))) : Prop :=
  ∀ e ∈ fl, match e.2 with
    | .sig io n => (e.1, Decl.sig io n) ∈ S ∧ (io = .inter ∨ port e.1 = some n)
    | .comp (d, insts) => ∃ t, (e.1, Decl.comp (t, d)) ∈ S ∧ ∀ i ∈ insts, t = some i.1 ∧ InstOk P i.1 i.2

/-- A variable has its type. -/
def VarOk (a : Nat × Option Nat) (b : Nat × Nat) : Prop := a.1 = b.1 ∧ (a.2 = none ∨ a.2 = some b.2)

/-- The variables of the environment have their types. -/
def BlkOk (bs : List (List (Nat × Option Nat))) (G : Gm) : Prop := List.Forall₂ (List.Forall₂ VarOk) bs G

theorem getOk {b : List (Nat × Option Nat)} {g : List (Nat × Nat)} (h : List.Forall₂ VarOk b g) (x : Nat) :
    (get b x = none ∧ get g x = none) ∨ ∃ a d, get b x = some a ∧ get g x = some d ∧ (a = none ∨ a = some d) := by
  induction h with
  | nil => exact .inl ⟨rfl, rfl⟩
  | @cons a c l l' h1 _ ih =>
    obtain ⟨y, v⟩ := a
    obtain ⟨z, w⟩ := c
    obtain ⟨rfl, h2⟩ := h1
    simp only [get]
    by_cases hx : y = x
    · rw [if_pos hx, if_pos hx]
      exact .inr ⟨v, w, rfl, rfl, h2⟩
    · rw [if_neg hx, if_neg hx]; exact ih

theorem getBOk {bs : List (List (Nat × Option Nat))} {G : Gm} (h : BlkOk bs G) (x : Nat) :
    (getB bs x = none ∧ getB G x = none) ∨
      ∃ a d, getB bs x = some a ∧ getB G x = some d ∧ (a = none ∨ a = some d) := by
  induction h with
  | nil => exact .inl ⟨rfl, rfl⟩
  | cons h1 _ ih =>
    simp only [getB]
    rcases getOk h1 x with ⟨h2, h3⟩ | ⟨a, d, h2, h3, h4⟩
    · rw [h2, h3]; exact ih
    · rw [h2, h3]; exact .inr ⟨a, d, rfl, rfl, h4⟩

theorem sigIn_mem {γ : Type} {io : Io} {fl : Flat γ} {x n : Nat} (h : sigIn io fl x = some n) :
    (x, Decl.sig io n) ∈ fl := by
  unfold sigIn at h
  obtain ⟨⟨y, d⟩, he, h1⟩ := List.exists_of_findSome?_eq_some h
  clear h
  rename' h1 => h
  rcases d with ⟨io', m⟩ | c
  · simp only at h
    split at h
    · rename_i hc
      obtain ⟨rfl, rfl⟩ := hc
      injection h with h; subst h; exact he
    · cases h
  · cases h

theorem sigGet_mem {γ : Type} {fl : Flat γ} {x n : Nat} (h : sigGet fl x = some n) :
    ∃ io, (x, Decl.sig io n) ∈ fl := by
  unfold sigGet at h
  split at h
  · rename_i m hm; cases h; exact ⟨_, sigIn_mem hm⟩
  · split at h
    · rename_i m hm; cases h; exact ⟨_, sigIn_mem hm⟩
    · exact ⟨_, sigIn_mem h⟩

theorem compGet_mem {γ : Type} {fl : Flat γ} {x : Nat} {c : γ} (h : compGet fl x = some c) :
    (x, Decl.comp c) ∈ fl := by
  unfold compGet at h
  obtain ⟨⟨y, d⟩, he, h1⟩ := List.exists_of_findSome?_eq_some h
  clear h
  rename' h1 => h
  rcases d with ⟨io', m⟩ | c'
  · cases h
  · simp only at h
    split at h
    · rename_i hc; subst hc; injection h with h; subst h; exact he
    · cases h

theorem key_mem {α : Type} {l : List (Nat × α)} {x : Nat} {a : α} (h : (x, a) ∈ l) : x ∈ keys l :=
  List.mem_map.mpr ⟨(x, a), h, rfl⟩

theorem nodup_unique {α : Type} {l : List (Nat × α)} (hn : (keys l).Nodup) {x : Nat} {a b : α}
    (ha : (x, a) ∈ l) (hb : (x, b) ∈ l) : a = b := by
  induction l with
  | nil => cases ha
  | cons e l ih =>
    simp only [keys, List.map_cons, List.nodup_cons] at hn
    rcases List.mem_cons.mp ha with rfl | ha'
    · rcases List.mem_cons.mp hb with h | hb'
      · cases h; rfl
      · exact absurd (key_mem hb') hn.1
    · rcases List.mem_cons.mp hb with rfl | hb'
      · exact absurd (key_mem ha') hn.1
      · exact ih hn.2 ha' hb'

section Sound

variable {P : Prog} {R : Nat → List Nat → Nat → Prop} {Q : Nat → Prop} {S : Sg} {port : Nat → Option Nat}

theorem flat_keys {fl} (hF : FlatOk P S port fl) {x : Nat} (h : x ∉ keys S) : sigGet fl x = none ∧ compGet fl x = none := by
  constructor
  · cases hs : sigGet fl x with
    | none => rfl
    | some n =>
      obtain ⟨io, hm⟩ := sigGet_mem hs
      exact absurd (key_mem (hF _ hm).1) h
  · cases hs : compGet fl x with
    | none => rfl
    | some c =>
      obtain ⟨t, hm, _⟩ := hF _ (compGet_mem hs)
      exact absurd (key_mem hm) h

theorem flat_sig {fl} (hF : FlatOk P S port fl) (hn : (keys S).Nodup) {x : Nat} {io : Io} {d : Nat}
    (hx : (x, Decl.sig io d) ∈ S) : (sigGet fl x = none ∨ sigGet fl x = some d) ∧ compGet fl x = none := by
  constructor
  · cases hs : sigGet fl x with
    | none => exact .inl rfl
    | some n =>
      obtain ⟨io', hm⟩ := sigGet_mem hs
      have := nodup_unique hn hx (hF _ hm).1
      cases this; exact .inr rfl
  · cases hs : compGet fl x with
    | none => rfl
    | some c =>
      obtain ⟨t, hm, _⟩ := hF _ (compGet_mem hs)
      cases nodup_unique hn hx hm

theorem flat_comp {fl} (hF : FlatOk P S port fl) (hn : (keys S).Nodup) {x : Nat} {t : Option Nat} {d : Nat}
    (hx : (x, Decl.comp (t, d)) ∈ S) : sigGet fl x = none ∧
      (compGet fl x = none ∨ ∃ insts, compGet fl x = some (d, insts) ∧ ∀ i ∈ insts, t = some i.1 ∧ InstOk P i.1 i.2) := by
  constructor
  · cases hs : sigGet fl x with
    | none => rfl
    | some n =>
      obtain ⟨io', hm⟩ := sigGet_mem hs
      cases nodup_unique hn hx (hF _ hm).1
  · cases hs : compGet fl x with
    | none => exact .inl rfl
    | some c =>
      obtain ⟨d', insts⟩ := c
      obtain ⟨t', hm, hi⟩ := hF _ (compGet_mem hs)
      cases nodup_unique hn hx hm
      exact .inr ⟨insts, rfl, hi⟩

/-- The call handler is safe on the instances in `R`. -/
def CallOk (P : Prog) (R : Nat → List Nat → Nat → Prop) (call : Nat → List Val → Nat → Res Val) : Prop :=
  ∀ f ds r vs k D, R f ds r → lookup P f = some D → D.params.length = ds.length →
    List.Forall₂ (fun v d => v = Val.ar d ∨ v = Val.lost) vs ds →
    Safe (call f vs k) fun v => VOk P v (if (get P.fns f).isSome then .ar r else .tpl f)

theorem all_single {vs : List Val} {ts : List FT} (h : List.Forall₂ (VOk P) vs ts) (hs : ts.all FT.scalar = true) :
    vs.all Val.single = true := by
  induction h with
  | nil => rfl
  | @cons v t vs ts h1 _ ih =>
    simp only [List.all_cons, Bool.and_eq_true] at hs ⊢
    refine ⟨?_, ih hs.2⟩
    rcases v with n | _ | ⟨u, ports⟩
    · simp only [VOk] at h1; subst h1
      rcases n with _ | n
      · rfl
      · simp [FT.scalar] at hs
    · rfl
    · simp only [VOk] at h1; obtain ⟨rfl, _⟩ := h1; simp [FT.scalar] at hs

theorem all_arith {vs : List Val} {ds : List Nat}
    (h : List.Forall₂ (fun v d => v = Val.ar d ∨ v = Val.lost) vs ds) : vs.all Val.arith = true := by
  induction h with
  | nil => rfl
  | cons h1 _ ih =>
    rw [List.all_cons, ih]
    rcases h1 with rfl | rfl <;> rfl

theorem vok_single {v : Val} (h : VOk P v (.ar 0)) : v.single = true := by
  rcases v with n | _ | ⟨u, ports⟩
  · cases h; rfl
  · rfl
  · cases h.1

theorem vok_arith {v : Val} {n : Nat} (h : VOk P v (.ar n)) : v.arith = true := by
  rcases v with n | _ | ⟨u, ports⟩
  · rfl
  · rfl
  · cases h.1

theorem vok_fits {v : Val} {n : Nat} (h : VOk P v (.ar n)) : v.fits n = true := by
  rcases v with n | _ | ⟨u, ports⟩
  · cases h; simp [Val.fits]
  · rfl
  · cases h.1

theorem safe_one {r : Res (List Val)} {t : FT} (h : Safe r fun vs => List.Forall₂ (VOk P) vs [t]) :
    Safe (bnd r oneV) fun v => VOk P v t := by
  refine Safe.bnd h fun vs k hv => ?_
  obtain ⟨v, vs', h1, h2, rfl⟩ := List.forall₂_cons_right_iff.mp hv
  cases h2
  exact h1

theorem readAr_safe {d n w : Nat} (h : n ≤ d) :
    SafeX (readAr false d n w) fun a => VOk P a (.ar (d - n)) := by
  unfold readAr
  rw [if_neg (by omega)]
  split
  · exact trivial
  · exact rfl

theorem portX_safe {t s pd : Nat} {ports D} (hi : InstOk P t ports) (hD : get P.tpls t = some D)
    (hp : portGet D.body s = some pd) :
    SafeX (portX P t ports s) fun d => d = pd := by
  obtain ⟨D', hD', hi⟩ := hi
  rw [hD] at hD'; cases hD'
  unfold portX
  cases hg : get ports s with
  | some d =>
    have := hi s d hg
    rw [hp] at this; cases this
    rfl
  | none => simp [hD, hp, SafeX]

theorem eval_safe {reached : List Nat} (hQ : ∀ f, Q f → f ∈ reached) {o : Nat → Nat}
    {call : Nat → List Val → Nat → Res Val} (hcall : CallOk P R call) (hn : (keys S).Nodup)
    {env : XEnv} {G : Gm} (hF : FlatOk P S port env.flat) (hB : BlkOk env.blocks G) (e : Exp) (ts : List FT)
    (h : HasTy P R Q S G e ts) : ∀ k, Safe (eval P false reached o call env e k) fun vs => List.Forall₂ (VOk P) vs ts := by
  have one : ∀ {v : Val} {t : FT}, VOk P v t → List.Forall₂ (VOk P) [v] [t] := fun h => .cons h .nil
  induction h with
  | num => intro k; exact .cons rfl .nil
  | vvar x is ts d h hs hx hS hd ih =>
    intro k
    refine Safe.bnd (ih k) fun vs k1 hv => Safe.bnd (Safe.guard (all_single hv hs)) fun _ k1 _ => ?_
    refine Safe.bnd (Safe.ask (p := fun v => VOk P v (.ar (d - len is))) fun w => ?_) fun v k2 hv => one hv
    obtain ⟨h1, h2⟩ := flat_keys hF hS
    unfold readX
    rw [h1, h2]
    rcases getBOk hB x with ⟨_, h4⟩ | ⟨a, d', h3, h4, h5⟩
    · rw [hx] at h4; cases h4
    · rw [hx] at h4; cases h4
      rw [h3]
      rcases h5 with rfl | rfl
      · exact trivial
      · exact readAr_safe (P := P) (w := w) hd
  | vsig x is ts io d h hs hx hG hd ih =>
    intro k
    refine Safe.bnd (ih k) fun vs k1 hv => Safe.bnd (Safe.guard (all_single hv hs)) fun _ k1 _ => ?_
    refine Safe.bnd (Safe.ask (p := fun v => VOk P v (.ar (d - len is))) fun w => ?_) fun v k2 hv => one hv
    obtain ⟨h1, h2⟩ := flat_sig hF hn hx
    unfold readX
    rcases h1 with h1 | h1
    · rw [h1, h2]
      rcases getBOk hB x with ⟨h3, _⟩ | ⟨a, d', h3, h4, h5⟩
      · rw [h3]; simp [SafeX]
      · rw [hG] at h4; cases h4
    · rw [h1]; exact readAr_safe (P := P) (w := w) hd
  | vcomp x is ts t d h hs hx hG hd ih =>
    intro k
    refine Safe.bnd (ih k) fun vs k1 hv => Safe.bnd (Safe.guard (all_single hv hs)) fun _ k1 _ => ?_
    refine Safe.bnd (Safe.ask (p := fun v => VOk P v (.tpl t)) fun w => ?_) fun v k2 hv => one hv
    obtain ⟨h1, h2⟩ := flat_comp hF hn hx
    unfold readX
    rw [h1]
    rcases h2 with h2 | ⟨insts, h2, hi⟩
    · rw [h2]
      rcases getBOk hB x with ⟨h3, _⟩ | ⟨a, d', h3, h4, h5⟩
      · rw [h3]; simp [SafeX]
      · rw [hG] at h4; cases h4
    · rw [h2]
      simp only [ne_eq, hd, not_true_eq_false, if_false]
      by_cases hw : w = 0 ∧ d > 0
      · rw [if_pos hw]; exact trivial
      · rw [if_neg hw]
        cases hg : insts[w - 1]? with
        | none => simp [SafeX]
        | some i =>
          obtain ⟨u, ports⟩ := i
          obtain ⟨h5, h6⟩ := hi _ (List.mem_of_getElem? hg)
          cases h5
          exact ⟨rfl, h6⟩
  | port x is ts s js us t d D pd h hs h' hs' hx hG hd hD hp hj ih ih' =>
    intro k
    refine Safe.bnd (ih k) fun vs k1 hv => Safe.bnd (ih' k1) fun ws k2 hw => ?_
    refine Safe.bnd (Safe.guard (by rw [all_single hv hs, all_single hw hs']; rfl)) fun _ k1 _ => ?_
    refine Safe.bnd (Safe.ask (p := fun v => VOk P v (.ar (pd - len js))) fun w => ?_) fun v k2 hv => one hv
    obtain ⟨h1, h2⟩ := flat_comp hF hn hx
    unfold readPort instX
    rw [h1]
    rcases h2 with h2 | ⟨insts, h2, hi⟩
    · rw [h2]
      rcases getBOk hB x with ⟨h3, _⟩ | ⟨a, d', h3, h4, h5⟩
      · rw [h3]; simp [SafeX]
      · rw [hG] at h4; cases h4
    · rw [h2]
      simp only [ne_eq, hd, not_true_eq_false, if_false]
      cases hg : insts[w - 1]? with
      | none => simp [SafeX]
      | some i =>
        obtain ⟨u, ports⟩ := i
        obtain ⟨h5, h6⟩ := hi _ (List.mem_of_getElem? hg)
        cases h5
        simp only
        have := portX_safe h6 hD hp
        cases hpx : portX P u ports s with
        | error e => rw [hpx] at this; exact this
        | ok d' =>
          rw [hpx] at this
          subst this
          simp only
          split
          · exact trivial
          · exact readAr_safe hj
  | op l r hl hr ihl ihr =>
    intro k
    refine Safe.bnd (safe_one (ihl k)) fun v k1 hv => Safe.bnd (safe_one (ihr k1)) fun w k2 hw => ?_
    exact Safe.bnd (Safe.guard (by rw [vok_single hv, vok_single hw]; rfl)) fun _ k2 _ => one (by simp [VOk])
  | pre e h ih =>
    intro k
    refine Safe.bnd (safe_one (ih k)) fun v k1 hv => ?_
    exact Safe.bnd (Safe.guard (vok_single hv)) fun _ k2 _ => one (by simp [VOk])
  | par e t h ih =>
    intro k
    refine Safe.bnd (safe_one (ih k)) fun v k1 hv => ?_
    rcases v with n | _ | ⟨u, ports⟩
    · cases hv
    · exact one hv
    · exact one hv
  | cond c a b t hc ha hb ihc iha ihb =>
    intro k
    refine Safe.bnd (safe_one (ihc k)) fun v k1 hv => Safe.bnd (Safe.guard (vok_single hv)) fun _ k1 _ => ?_
    by_cases h0 : o k1 = 0
    · rw [if_pos h0]
      exact Safe.bnd (safe_one (iha _)) fun v k2 hv => one hv
    · rw [if_neg h0]
      by_cases h1 : o k1 = 1
      · rw [if_pos h1]
        exact Safe.bnd (safe_one (ihb _)) fun v k2 hv => one hv
      · rw [if_neg h1]; exact one (by simp [lose, VOk])
  | arr es ts n h hne hall ih =>
    intro k
    refine Safe.bnd (ih k) fun vs k1 hv => ?_
    have hall' : ∀ v ∈ vs, v = .ar n ∨ v = .lost := by
      clear ih h
      induction hv with
      | nil => intro v hv; cases hv
      | @cons v t vs ts h1 _ ih' =>
        intro u hu
        rcases List.mem_cons.mp hu with rfl | hu
        · have := hall t (List.mem_cons_self)
          subst this
          rcases u with m | _ | ⟨w, ports⟩
          · cases h1; exact .inl rfl
          · exact .inr rfl
          · cases h1.1
        · cases ts with
          | nil => rename_i h2; cases h2; cases hu
          | cons t' ts' => exact ih' (by simp) (fun t ht => hall t (List.mem_cons_of_mem _ ht)) u hu
    rcases vs with _ | ⟨v, vs⟩
    · cases hv; exact absurd rfl hne
    · have ha : (v :: vs).all Val.arith = true := by
        rw [List.all_eq_true]
        intro u hu
        rcases hall' u hu with rfl | rfl <;> rfl
      by_cases hl : Val.lost ∈ v :: vs
      · simp only [arrX, if_pos ha, if_pos hl]; exact one trivial
      · simp only [arrX, if_pos ha, if_neg hl]
        rcases hall' v List.mem_cons_self with rfl | rfl
        · have : vs.all (Val.fits n) = true := by
            rw [List.all_eq_true]
            intro u hu
            rcases hall' u (List.mem_cons_of_mem _ hu) with rfl | rfl
            · simp [Val.fits]
            · rfl
          simp only [this, if_true]
          exact one rfl
        · exact absurd List.mem_cons_self hl
  | uni v n d hv hn ihv ihn =>
    intro k
    refine Safe.bnd (safe_one (ihn k)) fun w k1 hw => Safe.bnd (Safe.guard (vok_single hw)) fun _ k1 _ => ?_
    refine Safe.bnd (safe_one (ihv k1)) fun u k2 hu => ?_
    rcases u with m | _ | ⟨t, ports⟩
    · cases hu; exact one rfl
    · exact one trivial
    · cases hu.1
  | callf f es ds D r h hD hl hR hQf ih =>
    intro k
    refine Safe.bnd (ih k) fun vs k1 hv => ?_
    have hv' : List.Forall₂ (fun v d => v = Val.ar d ∨ v = Val.lost) vs ds := by
      rw [List.forall₂_map_right_iff] at hv
      refine hv.imp fun v d hvd => ?_
      rcases v with m | _ | ⟨t, ports⟩
      · cases hvd; exact .inl rfl
      · exact .inr rfl
      · cases hvd.1
    have ha := all_arith hv'
    refine Safe.bnd (Safe.guard ha) fun _ k1 _ => ?_
    refine Safe.bnd (Safe.guard (by simpa using hQ f hQf)) fun _ k1 _ => ?_
    have := hcall f ds r vs k1 D hR (by simp [lookup, hD]) hl hv'
    simp only [hD, Option.isSome_some, if_true] at this
    exact Safe.bnd this fun v k2 hv => one hv
  | callt f es ds D r h hf hD hl hR hQf ih =>
    intro k
    refine Safe.bnd (ih k) fun vs k1 hv => ?_
    have hv' : List.Forall₂ (fun v d => v = Val.ar d ∨ v = Val.lost) vs ds := by
      rw [List.forall₂_map_right_iff] at hv
      refine hv.imp fun v d hvd => ?_
      rcases v with m | _ | ⟨t, ports⟩
      · cases hvd; exact .inl rfl
      · exact .inr rfl
      · cases hvd.1
    have ha := all_arith hv'
    refine Safe.bnd (Safe.guard ha) fun _ k1 _ => ?_
    refine Safe.bnd (Safe.guard (by simpa using hQ f hQf)) fun _ k1 _ => ?_
    have := hcall f ds r vs k1 D hR (by simp [lookup, hf, hD]) hl hv'
    simp only [hf, Option.isSome_none, Bool.false_eq_true, if_false] at this
    exact Safe.bnd this fun v k2 hv => one hv
  | nil => intro k; exact .nil
  | cons e es t ts he hes ihe ihes =>
    intro k
    refine Safe.bnd (safe_one (ihe k)) fun v k1 hv => Safe.bnd (ihes k1) fun vs k2 hvs => ?_
    exact .cons hv hvs

/-! Statements -/

/-- What holds after a statement: the flat maps stay typed, a returned value has the type announced, only the
innermost block has changed, and it is typed unless the statement returned. -/
def After (P : Prog) (S : Sg) (ret : Option Nat) (port : Nat → Option Nat) (env : XEnv) (G' : Gm)
    (r : XEnv × Option Val) : Prop :=
  FlatOk P S port r.1.flat ∧ r.1.blocks.tail = env.blocks.tail ∧
    (match r.2 with
      | none => BlkOk r.1.blocks G'
      | some v => ∃ n, ret = some n ∧ VOk P v (.ar n))

theorem addB_ok {bs : List (List (Nat × Option Nat))} {G : Gm} (h : BlkOk bs G) (x n : Nat) :
    BlkOk (addB bs x (some n)) (addB G x n) := by
  cases h with
  | nil => exact .cons (.cons ⟨rfl, .inr rfl⟩ .nil) .nil
  | cons h1 h2 => exact .cons (.cons ⟨rfl, .inr rfl⟩ h1) h2

theorem addB_tail {α : Type} (bs : List (List (Nat × α))) (x : Nat) (a : α) : (addB bs x a).tail = bs.tail := by
  cases bs <;> rfl

theorem blk_safe {ret : Option Nat} {f : XEnv → Nat → Res (XEnv × Option Val)} {env : XEnv} {G Gb : Gm} {k : Nat}
    (hF : FlatOk P S port env.flat) (hB : BlkOk env.blocks G)
    (hf : ∀ env k, FlatOk P S port env.flat → BlkOk env.blocks ([] :: G) → Safe (f env k) (After P S ret port env Gb)) :
    Safe (blkX f env k) fun r => FlatOk P S port r.1.flat ∧ r.1.blocks = env.blocks ∧
      (match r.2 with
        | none => True
        | some v => ∃ n, ret = some n ∧ VOk P v (.ar n)) := by
  unfold blkX
  refine Safe.bnd (hf _ k hF (.cons .nil hB)) fun r k1 hr => ?_
  obtain ⟨h1, h2, h3⟩ := hr
  refine ⟨h1, h2, ?_⟩
  cases hr : r.2 with
  | none => trivial
  | some v => rw [hr] at h3; exact h3

theorem iter_safe {ret : Option Nat} {f : XEnv → Nat → Res (XEnv × Option Val)} {bs : List (List (Nat × Option Nat))}
    (hf : ∀ env k, FlatOk P S port env.flat → env.blocks = bs →
      Safe (f env k) fun r => FlatOk P S port r.1.flat ∧ r.1.blocks = bs ∧
        (match r.2 with
          | none => True
          | some v => ∃ n, ret = some n ∧ VOk P v (.ar n))) :
    ∀ n (env : XEnv) k, FlatOk P S port env.flat → env.blocks = bs →
      Safe (iter f n env k) fun r => FlatOk P S port r.1.flat ∧ r.1.blocks = bs ∧
        (match r.2 with
          | none => True
          | some v => ∃ n, ret = some n ∧ VOk P v (.ar n)) := by
  intro n
  induction n with
  | zero => intro env k hF hb; exact ⟨hF, hb, trivial⟩
  | succ n ih =>
    intro env k hF hb
    unfold iter
    refine Safe.bnd (hf env k hF hb) fun r k1 hr => ?_
    obtain ⟨h1, h2, h3⟩ := hr
    cases hr : r.2 with
    | none => exact ih r.1 k1 h1 h2
    | some v =>
      refine Safe.ok ⟨h1, h2, ?_⟩
      rw [hr] at h3 ⊢; exact h3

theorem compSet_mem {γ : Type} {fl : Flat γ} {x : Nat} {f : γ → γ} {e : Nat × Decl γ} (h : e ∈ compSet fl x f) :
    e ∈ fl ∨ ∃ c, (x, Decl.comp c) ∈ fl ∧ e = (x, .comp (f c)) := by
  unfold compSet at h
  obtain ⟨⟨y, d⟩, hm, rfl⟩ := List.mem_map.mp h
  rcases d with ⟨io, n⟩ | c
  · exact .inl hm
  · simp only
    split
    · rename_i hy; subst hy; exact .inr ⟨c, hm, rfl⟩
    · exact .inl hm

theorem exec_safe {reached : List Nat} (hQ : ∀ f, Q f → f ∈ reached) {o : Nat → Nat}
    {call : Nat → List Val → Nat → Res Val} (hcall : CallOk P R call) (hn : (keys S).Nodup) {ret : Option Nat}
    (s : Stmt) (G G' : Gm) (h : OkS P R Q S ret port s G G') :
    ∀ (env : XEnv) k, FlatOk P S port env.flat → BlkOk env.blocks G →
      Safe (exec P false reached o call s env k) (After P S ret port env G') := by
  induction h with
  | skip G => intro env k hF hB; exact ⟨hF, rfl, hB⟩
  | seq a b G1 G2 G3 ha hb iha ihb =>
    intro env k hF hB
    refine Safe.bnd (iha env k hF hB) fun r k1 hr => ?_
    obtain ⟨h1, h2, h3⟩ := hr
    cases hr : r.2 with
    | none =>
      rw [hr] at h3
      refine (ihb r.1 k1 h1 h3).mono fun r' h' => ?_
      exact ⟨h'.1, h'.2.1.trans h2, h'.2.2⟩
    | some v =>
      refine Safe.ok ⟨h1, h2, ?_⟩
      rw [hr] at h3 ⊢; exact h3
  | dvar x ds ts G h hs =>
    intro env k hF hB
    refine Safe.bnd (eval_safe hQ hcall hn hF hB _ _ h k) fun vs k1 hv => ?_
    refine Safe.bnd (Safe.guard (all_single hv hs)) fun _ k1 _ => ?_
    exact ⟨hF, addB_tail _ _ _, addB_ok hB _ _⟩
  | dsig io x ds ts G h hs hx hp =>
    intro env k hF hB
    refine Safe.bnd (eval_safe hQ hcall hn hF hB _ _ h k) fun vs k1 hv => ?_
    refine Safe.bnd (Safe.guard (all_single hv hs)) fun _ k1 _ => ?_
    refine ⟨?_, rfl, hB⟩
    intro e he
    rcases List.mem_cons.mp he with rfl | he
    · exact ⟨hx, hp⟩
    · exact hF e he
  | dcomp i x ds ts t G h hs hx =>
    intro env k hF hB
    refine Safe.bnd (eval_safe hQ hcall hn hF hB _ _ h k) fun vs k1 hv => ?_
    refine Safe.bnd (Safe.guard (all_single hv hs)) fun _ k1 _ => ?_
    refine ⟨?_, rfl, hB⟩
    intro e he
    rcases List.mem_cons.mp he with rfl | he
    · exact ⟨t, hx, fun i hi => by cases hi⟩
    · exact hF e he
  | svar x is ts e d G h hs hx hS hd he =>
    intro env k hF hB
    refine Safe.bnd (eval_safe hQ hcall hn hF hB _ _ h k) fun vs k1 hv => ?_
    refine Safe.bnd (Safe.guard (all_single hv hs)) fun _ k1 _ => ?_
    refine Safe.bnd (safe_one (eval_safe hQ hcall hn hF hB _ _ he k1)) fun v k2 hv => ?_
    obtain ⟨h1, h2⟩ := flat_keys hF hS
    have : assignX env x (len is) .var v = .ok env := by
      unfold assignX
      rcases getBOk hB x with ⟨_, h4⟩ | ⟨a, d', h3, h4, h5⟩
      · rw [hx] at h4; cases h4
      · rw [hx] at h4; cases h4
        rw [h3, h2]
        rcases h5 with rfl | rfl
        · simp [vok_arith hv]
        · simp [vok_fits hv, hd]
    rw [this]
    exact ⟨hF, rfl, hB⟩
  | ssig x is ts o' e io d G h hs hx hG ho hd he =>
    intro env k hF hB
    refine Safe.bnd (eval_safe hQ hcall hn hF hB _ _ h k) fun vs k1 hv => ?_
    refine Safe.bnd (Safe.guard (all_single hv hs)) fun _ k1 _ => ?_
    refine Safe.bnd (safe_one (eval_safe hQ hcall hn hF hB _ _ he k1)) fun v k2 hv => ?_
    obtain ⟨h1, h2⟩ := flat_sig hF hn hx
    have : assignX env x (len is) o' v = .ok env ∨ assignX env x (len is) o' v = .error .unbound := by
      unfold assignX
      rcases getBOk hB x with ⟨h3, _⟩ | ⟨a, d', h3, h4, h5⟩
      · rw [h3]
        rcases h1 with h1 | h1
        · right; rw [h1, h2]
        · left; rw [h1]; simp [ho, hd, vok_fits hv]
      · rw [hG] at h4; cases h4
    rcases this with this | this <;> rw [this]
    · exact ⟨hF, rfl, hB⟩
    · simp [Safe]
  | scomp x is ts e t d G h hs hx hG hd he =>
    intro env k hF hB
    refine Safe.bnd (eval_safe hQ hcall hn hF hB _ _ h k) fun vs k1 hv => ?_
    refine Safe.bnd (Safe.guard (all_single hv hs)) fun _ k1 _ => ?_
    refine Safe.bnd (safe_one (eval_safe hQ hcall hn hF hB _ _ he k1)) fun v k2 hv => ?_
    obtain ⟨h1, h2⟩ := flat_comp hF hn hx
    rcases getBOk hB x with ⟨h3, _⟩ | ⟨a, d', h3, h4, h5⟩
    · rcases h2 with h2 | ⟨insts, h2, hi⟩
      · simp only [assignX, h3, h1, h2]; simp [Safe]
      · simp only [assignX, h3, h1, h2, ne_eq, not_true_eq_false, if_false, hd]
        rcases v with m | _ | ⟨u, ports⟩
        · cases hv
        · exact ⟨hF, rfl, hB⟩
        · obtain ⟨h6, h7⟩ := hv
          cases h6
          have : insts.all (fun i => i.1 == t) = true := by
            rw [List.all_eq_true]
            intro i hi'
            have := (hi i hi').1
            cases this; simp
          simp only [this, if_true]
          refine ⟨?_, rfl, hB⟩
          intro e' he'
          rcases compSet_mem he' with he' | ⟨c, hc, rfl⟩
          · exact hF e' he'
          · obtain ⟨d', insts'⟩ := c
            obtain ⟨t', h8, h9⟩ := hF _ hc
            cases nodup_unique hn hx h8
            refine ⟨_, h8, ?_⟩
            intro i hi'
            rcases List.mem_cons.mp hi' with rfl | hi'
            · exact ⟨rfl, h7⟩
            · exact h9 i hi'
    · rw [hG] at h4; cases h4
  | subp x is ts s js us o' e t d D pd G h hs h' hs' hx hG hd hD hp ho hj he =>
    intro env k hF hB
    refine Safe.bnd (eval_safe hQ hcall hn hF hB _ _ h k) fun vs k1 hv => ?_
    refine Safe.bnd (eval_safe hQ hcall hn hF hB _ _ h' k1) fun ws k2 hw => ?_
    refine Safe.bnd (Safe.guard (by rw [all_single hv hs, all_single hw hs']; rfl)) fun _ k1 _ => ?_
    refine Safe.bnd (safe_one (eval_safe hQ hcall hn hF hB _ _ he k1)) fun v k2 hv => ?_
    refine Safe.bnd (Safe.ask (p := fun _ => True) fun w => ?_) fun _ k4 _ => ⟨hF, rfl, hB⟩
    obtain ⟨h1, h2⟩ := flat_comp hF hn hx
    rcases getBOk hB x with ⟨h3, _⟩ | ⟨a, d', h3, h4, h5⟩
    · unfold assignP instX
      rcases h2 with h2 | ⟨insts, h2, hi⟩
      · rw [h3, h1, h2]; simp [SafeX]
      · rw [h3, h1, h2]
        simp only [Option.isSome_none, Bool.false_eq_true, if_false, ne_eq, hd, not_true_eq_false]
        cases hg : insts[w - 1]? with
        | none => simp [SafeX]
        | some i =>
          obtain ⟨u, ports⟩ := i
          obtain ⟨h5, h6⟩ := hi _ (List.mem_of_getElem? hg)
          cases h5
          simp only
          have := portX_safe h6 hD hp
          cases hpx : portX P u ports s with
          | error e => rw [hpx] at this; exact this
          | ok d' =>
            rw [hpx] at this
            subst this
            simp only
            rw [if_pos ⟨ho, hj, vok_fits hv⟩]
            exact trivial
    · rw [hG] at h4; cases h4
  | eqc l r n G hl hr =>
    intro env k hF hB
    refine Safe.bnd (safe_one (eval_safe hQ hcall hn hF hB _ _ hl k)) fun v k1 hv => ?_
    refine Safe.bnd (safe_one (eval_safe hQ hcall hn hF hB _ _ hr k1)) fun w k2 hw => ?_
    refine Safe.bnd (Safe.guard ?_) fun _ k2 _ => ⟨hF, rfl, hB⟩
    rcases v with m | _ | ⟨u, ports⟩
    · cases hv; exact vok_fits hw
    · exact vok_arith hw
    · cases hv.1
  | log e G h =>
    intro env k hF hB
    refine Safe.bnd (safe_one (eval_safe hQ hcall hn hF hB _ _ h k)) fun v k1 hv => ?_
    exact Safe.bnd (Safe.guard (vok_single hv)) fun _ k2 _ => ⟨hF, rfl, hB⟩
  | asrt e G h =>
    intro env k hF hB
    refine Safe.bnd (safe_one (eval_safe hQ hcall hn hF hB _ _ h k)) fun v k1 hv => ?_
    exact Safe.bnd (Safe.guard (vok_single hv)) fun _ k2 _ => ⟨hF, rfl, hB⟩
  | ret e n G h hr =>
    intro env k hF hB
    refine Safe.bnd (safe_one (eval_safe hQ hcall hn hF hB _ _ h k)) fun v k1 hv => ?_
    exact Safe.bnd (Safe.guard (vok_arith hv)) fun _ k2 _ => ⟨hF, rfl, n, hr, hv⟩
  | ite c a b G Ga Gb hc ha hb iha ihb =>
    intro env k hF hB
    refine Safe.bnd (safe_one (eval_safe hQ hcall hn hF hB _ _ hc k)) fun v k1 hv => ?_
    refine Safe.bnd (Safe.guard (vok_single hv)) fun _ k1 _ => ?_
    have sA := fun (env : XEnv) k hF hB => blk_safe (P := P) (S := S) (port := port) (ret := ret) (env := env) (k := k) (G := G) hF hB iha
    have sB := fun (env : XEnv) k hF hB => blk_safe (P := P) (S := S) (port := port) (ret := ret) (env := env) (k := k) (G := G) hF hB ihb
    have fin : ∀ r : XEnv × Option Val, (FlatOk P S port r.1.flat ∧ r.1.blocks = env.blocks ∧
        (match r.2 with
          | none => True
          | some v => ∃ n, ret = some n ∧ VOk P v (.ar n))) → After P S ret port env G r := by
      intro r ⟨h1, h2, h3⟩
      refine ⟨h1, by rw [h2], ?_⟩
      cases hr : r.2 with
      | none => simp only; rw [h2]; exact hB
      | some v => rw [hr] at h3; exact h3
    by_cases h0 : o k1 = 0
    · rw [if_pos h0]; exact (sA env _ hF hB).mono fin
    · rw [if_neg h0]
      by_cases h1 : o k1 = 1
      · rw [if_pos h1]; exact (sB env _ hF hB).mono fin
      · rw [if_neg h1]
        refine Safe.bnd (sA env _ hF hB) fun ra k2 hra => ?_
        obtain ⟨a1, a2, a3⟩ := hra
        refine Safe.bnd (sB ra.1 _ a1 (by rw [a2]; exact hB)) fun rb k3 hrb => ?_
        obtain ⟨b1, b2, b3⟩ := hrb
        have hbb : rb.1.blocks = env.blocks := b2.trans a2
        cases hra : ra.2 with
        | none =>
          refine fin _ ⟨b1, hbb, ?_⟩
          simpa using b3
        | some v =>
          rw [hra] at a3
          cases hrb : rb.2 with
          | none => exact fin _ ⟨b1, hbb, a3⟩
          | some w =>
            rw [hrb] at b3
            refine fin _ ⟨b1, hbb, ?_⟩
            simp only
            split
            · exact a3
            · exact b3
  | loop c b G Gb hc hb ihb =>
    intro env k hF hB
    have sI := iter_safe (P := P) (S := S) (port := port) (ret := ret) (bs := env.blocks)
      (f := fun env k =>
        bnd (bnd (eval P false reached o call env c k) oneV) fun v k1 =>
        bnd (guard v.single .kind k1) fun _ k1 =>
        blkX (exec P false reached o call b) env k1)
      (by
        intro env' k' hF' hb'
        refine Safe.bnd (safe_one (eval_safe hQ hcall hn hF' (by rw [hb']; exact hB) _ _ hc k')) fun v k1 hv => ?_
        refine Safe.bnd (Safe.guard (vok_single hv)) fun _ k1 _ => ?_
        have := blk_safe (P := P) (S := S) (port := port) (ret := ret) (env := env') (k := k1) (G := G) hF'
          (by rw [hb']; exact hB) ihb
        rw [hb'] at this
        exact this)
    refine Safe.bnd (sI (o k) env (k + 1) hF rfl) fun r k1 hr => ?_
    obtain ⟨h1, h2, h3⟩ := hr
    cases hr : r.2 with
    | none =>
      have hB' : BlkOk r.1.blocks G := by rw [h2]; exact hB
      refine Safe.bnd (safe_one (eval_safe hQ hcall hn h1 hB' _ _ hc k1)) fun v k2 hv => ?_
      refine Safe.bnd (Safe.guard (vok_single hv)) fun _ k2 _ => ⟨h1, by rw [h2], ?_⟩
      rw [hr]; exact hB'
    | some v =>
      refine Safe.ok ⟨h1, by rw [h2], ?_⟩
      rw [hr] at h3 ⊢; exact h3
  | block b G Gb hb ihb =>
    intro env k hF hB
    refine (blk_safe (P := P) (S := S) (port := port) (ret := ret) (env := env) (k := k) (G := G) hF hB ihb).mono ?_
    intro r ⟨h1, h2, h3⟩
    refine ⟨h1, by rw [h2], ?_⟩
    cases hr : r.2 with
    | none => simp only; rw [h2]; exact hB
    | some v => rw [hr] at h3; exact h3
  | under e n G h =>
    intro env k hF hB
    refine Safe.bnd (safe_one (eval_safe hQ hcall hn hF hB _ _ h k)) fun v k1 hv => ?_
    exact Safe.bnd (Safe.guard (vok_arith hv)) fun _ k2 _ => ⟨hF, rfl, hB⟩

/-! Calls -/

theorem params_ok (xs : List Nat) {vs : List Val} {ds : List Nat}
    (h : List.Forall₂ (fun v d => v = Val.ar d ∨ v = Val.lost) vs ds) :
    List.Forall₂ VarOk (xs.zip (vs.map Val.dims)) (xs.zip ds) := by
  induction h generalizing xs with
  | nil => simp
  | cons h1 _ ih =>
    cases xs with
    | nil => simp
    | cons x xs =>
      simp only [List.map_cons, List.zip_cons_cons]
      refine .cons ⟨rfl, ?_⟩ (ih xs)
      rcases h1 with rfl | rfl
      · exact .inr rfl
      · exact .inl rfl

theorem portsX_get {env : XEnv} {s n : Nat} (h : get (portsX env) s = some n) :
    ∃ io, io ≠ .inter ∧ (s, Decl.sig io n) ∈ env.flat := by
  unfold portsX at h
  generalize env.flat = fl at *
  induction fl with
  | nil => cases h
  | cons e fl ih =>
    obtain ⟨y, d⟩ := e
    rcases d with ⟨io, m⟩ | c
    · by_cases hio : io = .inter
      · simp only [List.filterMap_cons, hio, if_true] at h
        obtain ⟨io', h1, h2⟩ := ih h
        exact ⟨io', h1, List.mem_cons_of_mem _ h2⟩
      · simp only [List.filterMap_cons, hio, if_false, get] at h
        by_cases hy : y = s
        · rw [if_pos hy] at h
          subst hy
          injection h with h
          subst h
          exact ⟨io, hio, List.mem_cons_self⟩
        · rw [if_neg hy] at h
          obtain ⟨io', h1, h2⟩ := ih h
          exact ⟨io', h1, List.mem_cons_of_mem _ h2⟩
    · simp only [List.filterMap_cons] at h
      obtain ⟨io', h1, h2⟩ := ih h
      exact ⟨io', h1, List.mem_cons_of_mem _ h2⟩

theorem callX_safe {reached : List Nat} (hQ : ∀ f, Q f → f ∈ reached) {o : Nat → Nat} (hR : Closed P R Q) :
    ∀ fuel, CallOk P R (callX P false reached o fuel) := by
  intro fuel
  induction fuel with
  | zero => intro f ds r vs k D _ _ _ _; simp [callX, Safe]
  | succ fuel ih =>
    intro f ds r vs k D hf hD hl hv
    have hlen : vs.length = ds.length := hv.length_eq
    have hbody := hR f ds r hf
    unfold BodyOk at hbody
    unfold callX
    unfold lookup at hD
    have hpar : BlkOk [(D.params.zip (vs.map Val.dims)).reverse] [(D.params.zip ds).reverse] :=
      .cons (List.rel_reverse (params_ok D.params hv)) .nil
    cases hfn : get P.fns f with
    | some D' =>
      rw [hfn] at hD hbody
      cases hD
      obtain ⟨G, hok⟩ := hbody
      simp only [Option.isSome_some, if_true]
      rw [if_neg (by rw [hlen, hl]; simp)]
      refine Safe.bnd (exec_safe (S := []) hQ ih (by simp) _ _ _ hok _ k (by intro e he; cases he) hpar) fun r' k1 hr => ?_
      obtain ⟨_, _, h3⟩ := hr
      cases hr' : r'.2 with
      | none => simp [Safe]
      | some v =>
        rw [hr'] at h3
        obtain ⟨n, hn, hv⟩ := h3
        cases hn
        exact hv
    | none =>
      rw [hfn] at hD hbody
      simp only at hD
      obtain ⟨S, G, hn, hok⟩ := hbody D hD
      simp only [Option.isSome_none, Bool.false_eq_true, if_false]
      rw [hD]
      simp only
      rw [if_neg (by rw [hlen, hl]; simp)]
      refine Safe.bnd (exec_safe hQ ih hn _ _ _ hok _ k (by intro e he; cases he) hpar) fun r' k1 hr => ?_
      obtain ⟨h1, _, h3⟩ := hr
      cases hr' : r'.2 with
      | some v => rw [hr'] at h3; obtain ⟨n, hn, _⟩ := h3; cases hn
      | none =>
        refine ⟨rfl, D, hD, ?_⟩
        intro s n hs
        obtain ⟨io, hio, hm⟩ := portsX_get hs
        rcases (h1 _ hm).2 with h | h
        · exact absurd h hio
        · exact h

/-- The execution of a program whose instances are well typed meets no value of the wrong kind. -/
theorem run_safe {reached : List Nat} (hQ : ∀ f, Q f → f ∈ reached) {o : Nat → Nat} (hR : Closed P R Q)
    {ts : List FT} (hm : HasTy P R Q [] [[]] P.main ts) (fuel : Nat) :
    Safe (run P false reached o fuel) fun vs => List.Forall₂ (VOk P) vs ts :=
  eval_safe (S := []) (env := ⟨[[]], []⟩) (G := [[]]) (port := fun _ => none) hQ (callX_safe hQ hR fuel) (by simp)
    (by intro e he; cases he) (.cons .nil .nil) _ _ hm 0

end Sound

end Verif.Types
