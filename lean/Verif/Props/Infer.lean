import Verif.InferSim
import Verif.Props.Types

/-!
C93: the inference of the templates of components. It changes nothing but the marks of the declarations; the mark of
a component is the template written in the last assignment to it; a program accepted without the marks is accepted
with them; and in an accepted program all the templates assigned to a component are its mark. Where a name is
declared in two blocks the inference mixes the two components up.
-/

set_option linter.unusedVariables false

namespace Verif.Props.Infer

open Verif.Types
open Verif.Props.Types (list chain v)

/-- Templates an expression can stand for, in the order of the text: those called in the arms of `?:` and
after `parallel`. -/
def stands (tpls : List (Nat × Def)) : Exp → List Nat
  | .cond _ a b => stands tpls a ++ stands tpls b
  | .par e => stands tpls e
  | .call f _ => if f ∈ tpls.map Prod.fst then [f] else []
  | _ => []

/-- Right hand sides of the assignments to `x` or to one of its ports, in the order of the text. -/
def rights (x : Nat) : Stmt → List Exp
  | .seq a b => rights x a ++ rights x b
  | .ite _ a b => rights x a ++ rights x b
  | .loop _ b => rights x b
  | .block b => rights x b
  | .sub y _ _ e => if y = x then [e] else []
  | .subp y _ _ _ _ e => if y = x then [e] else []
  | _ => []

/-- The last of the assignments to `x` that names a template; if it is a choice of several, the first of them. -/
def lastNamed (tpls : List (Nat × Def)) (x : Nat) (s : Stmt) : Option Nat :=
  ((rights x s).filterMap fun e => (stands tpls e).head?).getLast?

theorem get_isSome {α : Type} (l : List (Nat × α)) (f : Nat) : (get l f).isSome = true ↔ f ∈ l.map Prod.fst := by
  induction l with
  | nil => simp [Verif.Types.get]
  | cons e l ih =>
    obtain ⟨y, a⟩ := e
    simp only [Verif.Types.get, List.map_cons, List.mem_cons]
    by_cases h : y = f
    · simp [h]
    · rw [if_neg h, ih]
      constructor
      · exact .inr
      · rintro (h' | h')
        · exact absurd h'.symm h
        · exact h'

theorem tplOf_head (tpls : List (Nat × Def)) (e : Exp) : tplOf tpls e = (stands tpls e).head? := by
  induction e with
  | cond c a b ihc iha ihb =>
    simp only [tplOf, stands, iha, ihb, List.head?_append]
    cases (stands tpls a).head? <;> rfl
  | par e ih => exact ih
  | call f es =>
    simp only [tplOf, stands]
    by_cases h : f ∈ tpls.map Prod.fst
    · rw [if_pos ((get_isSome _ _).mpr h), if_pos h]; rfl
    · rw [if_neg fun h' => h ((get_isSome _ _).mp h'), if_neg h]; rfl
  | _ => rfl

theorem assigned_eq (tpls : List (Nat × Def)) (x : Nat) (s : Stmt) :
    assigned tpls x s = (rights x s).filterMap fun e => (stands tpls e).head? := by
  induction s with
  | seq a b iha ihb => simp only [assigned, rights, List.filterMap_append, iha, ihb]
  | ite c a b iha ihb => simp only [assigned, rights, List.filterMap_append, iha, ihb]
  | loop c b ih => exact ih
  | block b ih => exact ih
  | sub y is o e =>
    simp only [assigned, rights, tplOf_head]
    split
    · simp only [List.filterMap_cons, List.filterMap_nil]
      cases (stands tpls e).head? <;> rfl
    · rfl
  | subp y is s js o e =>
    simp only [assigned, rights, tplOf_head]
    split
    · simp only [List.filterMap_cons, List.filterMap_nil]
      cases (stands tpls e).head? <;> rfl
    · rfl
  | _ => rfl

/-- `template A(k) { signal input in[k]; signal output out; out <== in[0]; }`, `template B(k)` with another port. -/
def tplA : Def := Verif.Props.Types.tplA

@[inherit_doc tplA]
def tplB : Def := ⟨[1], chain [.decl (.sig .input) 12 .nil]⟩

/-- `template M(n) { component c[n]; signal output o; if (n) { o <== c[0].out; } var i;
while (n - i) { c[i] = n ? A(n) : parallel A(1); i = i + 1; } }`: a port is read in the text before the component gets
its template. -/
def early : Def := ⟨[2], chain [.decl (.comp none) 20 (list [v 2]), .decl (.sig .output) 21 .nil,
  .ite (v 2) (.sub 21 .nil .constraint (.port 20 (list [.num]) 11 .nil)) .skip, .decl .var 22 .nil,
  .loop (.op (v 2) (v 22)) (chain [.sub 20 (list [v 22]) .var
    (.cond (v 2) (.call 200 (list [v 2])) (.par (.call 200 (list [.num])))), .sub 22 .nil .var (.op (v 22) .num)])]⟩

/-- `component main = M(3);` -/
def sample : Prog := ⟨[], [(200, tplA), (201, tplB), (202, early)], .call 202 (list [.num])⟩

/-- Functions, main component, names and parameters of templates and their text stay as they are; only the marks of
the declarations of components can change. -/
theorem C93_text (P : Prog) : (infer P).fns = P.fns ∧ (infer P).main = P.main ∧
    (infer P).tpls.map Prod.fst = P.tpls.map Prod.fst ∧
    ∀ f D, get P.tpls f = some D →
      ∃ D', get (infer P).tpls f = some D' ∧ D'.params = D.params ∧ bare D'.body = bare D.body := by
  refine ⟨rfl, rfl, by simp [infer], ?_⟩
  intro f D hD
  exact ⟨inferDef P.tpls D, by rw [infer_get, hD]; rfl, rfl, inferDef_bare _ _⟩

example : ∃ D', get (infer sample).tpls 202 = some D' ∧ D' ≠ early ∧ D'.params = early.params ∧
    bare D'.body = early.body ∧ kinds 20 D'.body = [.comp (some 200)] := by
  refine ⟨inferDef sample.tpls early, ?_⟩
  decide +kernel

/-- For programs with correct names: a component declared once gets the template named in the last assignment
to it, wherever it is in the text; without such an assignment it gets none. -/
theorem C93_last_partial (P : Prog) (hn : names P = true) {f x : Nat} {D : Def} {i : Option Nat}
    (hD : get P.tpls f = some D) (hx : kinds x D.body = [.comp i]) (hp : x ∉ D.params) :
    ∃ D', get (infer P).tpls f = some D' ∧ kinds x D'.body = [.comp (lastNamed P.tpls x D.body)] := by
  refine ⟨inferDef P.tpls D, by rw [infer_get, hD]; rfl, ?_⟩
  simp only [names, Bool.and_eq_true, List.all_eq_true] at hn
  have hd := hn.2 _ (get_mem hD)
  simp only [namesD, Bool.and_eq_true, Option.isSome_iff_exists] at hd
  obtain ⟨_, sc', hs⟩ := hd
  have := (collect_get (tpls := P.tpls) (x := x) D.body _ _ ⟨[], []⟩ hs (by rw [hx]; simp)
    (.inr (by simpa using hp))).2
  simp only [inferDef]
  rw [mark_kinds_one D.body _ hx, this, assigned_eq]
  simp [lastNamed, Verif.Types.get]

example : names sample = true ∧ kinds 20 early.body = [.comp none] ∧ 20 ∉ early.params ∧
    lastNamed sample.tpls 20 early.body = some 200 ∧ lastNamed sample.tpls 21 early.body = none := by decide +kernel

/-- For templates whose signals and components have names of their own, and names that are not both of a function and
a template: a program that is accepted without the marks is accepted with them, with the same instances and
the same reached definitions. `given` is the guess of the types of functions; nothing is assumed of it. -/
theorem C93_more_partial (P : Prog) (given : Nat → List Nat → Guess) (fuel : Nat) (hs : structured P = true)
    (ho : ∀ t ∈ P.tpls, Once t.2) (hd : ∀ t ∈ P.tpls, get P.fns t.1 = none)
    (hb : ∀ t ∈ P.tpls, bare t.2.body = t.2.body) (h : (check P given fuel).rep = []) :
    (check (infer P) given fuel).rep = [] ∧ (check (infer P) given fuel).reg = (check P given fuel).reg ∧
      (check (infer P) given fuel).reached = (check P given fuel).reached :=
  check_sim hs ho hd hb h

example : structured Verif.Props.Types.sample = true ∧ (∀ t ∈ Verif.Props.Types.sample.tpls, Once t.2) ∧
    (∀ t ∈ Verif.Props.Types.sample.tpls, Verif.Types.get Verif.Props.Types.sample.fns t.1 = none) ∧
    (∀ t ∈ Verif.Props.Types.sample.tpls, bare t.2.body = t.2.body) ∧
    (check Verif.Props.Types.sample (guess Verif.Props.Types.sample) 5).rep = [] ∧
    (infer Verif.Props.Types.sample).tpls ≠ Verif.Props.Types.sample.tpls := by decide +kernel

/-- The converse fails: a port that is used in the text before the component gets its template is accepted only with
the marks. -/
theorem C93_needed : structured sample = true ∧ (∀ t ∈ sample.tpls, Once t.2) ∧ names sample = true ∧
    (check (infer sample) (guess sample) 5).rep = [] ∧ (check sample (guess sample) 5).rep ≠ [] := by decide +kernel

theorem stands_ty {P : Prog} {R Q S G} (hd : ∀ t ∈ P.tpls, get P.fns t.1 = none) {e : Exp} {ts : List FT}
    (h : HasTy P R Q S G e ts) : ∀ u, u ∈ stands P.tpls e → ts = [.tpl u] := by
  induction h with
  | par e t h ih => intro u hu; exact ih u hu
  | cond c a b t hc ha hb ihc iha ihb =>
    intro u hu
    simp only [stands, List.mem_append] at hu
    rcases hu with hu | hu
    · exact iha u hu
    · exact ihb u hu
  | callf f es ds D r h hD hl hR hQ ih =>
    intro u hu
    simp only [stands] at hu
    split at hu
    · rename_i hs
      obtain ⟨e, he, hf⟩ := List.mem_map.mp hs
      have := hd e he
      rw [hf, hD] at this
      cases this
    · cases hu
  | callt f es ds D r h hf hD hl hR hQ ih =>
    intro u hu
    simp only [stands] at hu
    split at hu
    · rw [List.mem_singleton.mp hu]
    · cases hu
  | _ => intro u hu; cases hu

theorem ok_stands {P : Prog} {R Q S ret port} (hd : ∀ t ∈ P.tpls, get P.fns t.1 = none) {s : Stmt} {G G' : Gm}
    (h : OkS P R Q S ret port s G G') :
    ∀ x e t, e ∈ rights x s → t ∈ stands P.tpls e → ∃ d, (x, Decl.comp (some t, d)) ∈ S := by
  have hne : ∀ {G : Gm} {e : Exp} {n u : Nat}, HasTy P R Q S G e [.ar n] → u ∈ stands P.tpls e → False := by
    intro G e n u he hu
    have := stands_ty hd he u hu
    cases this
  induction h with
  | seq a b G1 G2 G3 ha hb iha ihb =>
    intro x e t h
    simp only [rights, List.mem_append] at h
    rcases h with h | h
    · exact iha x e t h
    · exact ihb x e t h
  | ite c a b G Ga Gb hc ha hb iha ihb =>
    intro x e t h
    simp only [rights, List.mem_append] at h
    rcases h with h | h
    · exact iha x e t h
    · exact ihb x e t h
  | loop c b G Gb hc hb ih => intro x e t h; exact ih x e t h
  | block b G Gb hb ih => intro x e t h; exact ih x e t h
  | svar y is ts e d G h hs hx hS hd he =>
    intro x e' t hm ht
    simp only [rights] at hm
    split at hm
    · rw [List.mem_singleton.mp hm] at ht; exact (hne he ht).elim
    · cases hm
  | ssig y is ts o e io d G h hs hx hG ho hd he =>
    intro x e' t hm ht
    simp only [rights] at hm
    split at hm
    · rw [List.mem_singleton.mp hm] at ht; exact (hne he ht).elim
    · cases hm
  | scomp y is ts e u d G h hs hx hG hdim he =>
    intro x e' t hm ht
    simp only [rights] at hm
    split at hm
    · rename_i hxy
      subst hxy
      rw [List.mem_singleton.mp hm] at ht
      have := stands_ty hd he t ht
      injection this with this _
      injection this with this
      subst this
      exact ⟨d, hx⟩
    · cases hm
  | subp y is ts s js us o e t d D pd G h hs h' hs' hx hG hd hD hp ho hj he =>
    intro x e' t hm ht
    simp only [rights] at hm
    split at hm
    · rw [List.mem_singleton.mp hm] at ht; exact (hne he ht).elim
    · cases hm
  | _ => intro x e t h; cases h

theorem infer_stands (P : Prog) (e : Exp) : stands (infer P).tpls e = stands P.tpls e := by
  have h : (infer P).tpls.map Prod.fst = P.tpls.map Prod.fst := by simp [infer]
  induction e with
  | cond c a b ihc iha ihb => simp only [stands, iha, ihb]
  | par e ih => exact ih
  | call f es => simp only [stands, h]
  | _ => rfl

theorem bare_rights (x : Nat) (s : Stmt) : rights x (bare s) = rights x s := by
  induction s with
  | seq a b iha ihb => simp only [bare, rights, iha, ihb]
  | ite c a b iha ihb => simp only [bare, rights, iha, ihb]
  | loop c b ih => exact ih
  | block b ih => exact ih
  | decl k x ds => cases k <;> rfl
  | _ => rfl

/-- For templates as in `C93_more_partial`: in a program accepted with the marks, all the templates assigned to a
component anywhere in an instantiated template, in whatever arm, are one and the same, and it is its mark. -/
theorem C93_agree_partial (P : Prog) (given : Nat → List Nat → Guess) (fuel : Nat) (hs : structured P = true)
    (ho : ∀ t ∈ P.tpls, Once t.2) (hd : ∀ t ∈ P.tpls, get P.fns t.1 = none) (hn : names P = true)
    (h : (check (infer P) given fuel).rep = []) {f : Nat} {ds : List Nat} {r : Nat} {D D' : Def}
    (hf : ((f, ds), r) ∈ (check (infer P) given fuel).reg) (hD : get P.tpls f = some D)
    (hD' : get (infer P).tpls f = some D') {x : Nat} {i : Option Nat} (hk : kinds x D.body = [.comp i])
    (hp : x ∉ D.params) {e : Exp} (he : e ∈ rights x D.body) {t : Nat} (ht : t ∈ stands P.tpls e) :
    kinds x D'.body = [.comp (some t)] := by
  have hcl := check_closed (given := given) (by rw [infer_structured]; exact hs) ((infer_once P).mpr ho) h f ds r hf
  have hfn : get P.fns f = none := hd _ (get_mem hD)
  unfold BodyOk at hcl
  rw [infer_fns, hfn] at hcl
  obtain ⟨S, G, hS, hok⟩ := hcl D' hD'
  have hd' : ∀ t ∈ (infer P).tpls, get (infer P).fns t.1 = none := by
    simp only [infer, List.forall_mem_map]
    exact hd
  have hbody : rights x D'.body = rights x D.body := by
    rw [infer_get, hD] at hD'
    injection hD' with hD'
    subst hD'
    rw [← bare_rights, inferDef_bare, bare_rights]
  have all : ∀ e' ∈ rights x D.body, ∀ u ∈ stands P.tpls e', u = t := by
    intro e' he' u hu
    obtain ⟨d1, m1⟩ := ok_stands hd' hok x e' u (by rw [hbody]; exact he') (by rw [infer_stands]; exact hu)
    obtain ⟨d2, m2⟩ := ok_stands hd' hok x e t (by rw [hbody]; exact he) (by rw [infer_stands]; exact ht)
    have := nodup_unique hS m1 m2
    injection this with this
    injection this with this _
    injection this
  obtain ⟨D'', h1, h2⟩ := C93_last_partial P hn hD hk hp
  rw [hD'] at h1
  injection h1 with h1
  subst h1
  rw [h2]
  have hhead : ∃ u, (stands P.tpls e).head? = some u := by
    cases hs : stands P.tpls e with
    | nil => rw [hs] at ht; cases ht
    | cons a l => exact ⟨a, rfl⟩
  have hne : (rights x D.body).filterMap (fun e => (stands P.tpls e).head?) ≠ [] := by
    obtain ⟨u, hu⟩ := hhead
    exact List.ne_nil_of_mem (List.mem_filterMap.mpr ⟨e, he, hu⟩)
  have hlast : lastNamed P.tpls x D.body = some t := by
    unfold lastNamed
    rw [List.getLast?_eq_some_getLast hne]
    have hm := List.getLast_mem hne
    obtain ⟨e', he', hu'⟩ := List.mem_filterMap.mp hm
    rw [all e' he' _ (List.mem_of_head? hu')]
  rw [hlast]

example : ((202, [0]), 0) ∈ (check (infer sample) (guess sample) 5).reg ∧ kinds 20 early.body = [.comp none] ∧
    ∃ e ∈ rights 20 early.body, 200 ∈ stands sample.tpls e := by
  refine ⟨by decide +kernel, by decide +kernel, ?_⟩
  exact ⟨.cond (v 2) (.call 200 (list [v 2])) (.par (.call 200 (list [.num]))), by decide +kernel, by decide +kernel⟩

/-- `template M(n) { if (n) { component c; c = A(1); } else { component d; d = B(1); } }` with the names of the
two components as parameters. -/
def twice (c d : Nat) : Prog := ⟨[], [(200, tplA), (201, tplB), (202, ⟨[2], .ite (v 2)
  (chain [.decl (.comp none) c .nil, .sub c .nil .var (.call 200 (list [.num]))])
  (chain [.decl (.comp none) d .nil, .sub d .nil .var (.call 201 (list [.num]))])⟩)], .call 202 (list [.num])⟩

/-- Without names of their own the statement fails: of two components in separate branches, each assigned once, the
first gets the template of the second and the program is rejected, though its names are correct and it is accepted
without the inference. With different names it is accepted. -/
theorem C93_branches_violated : names (twice 20 20) = true ∧ structured (twice 20 20) = true ∧
    (check (twice 20 20) (guess (twice 20 20)) 5).rep = [] ∧
    (check (infer (twice 20 20)) (guess (twice 20 20)) 5).rep = [.err] ∧
    (infer (twice 20 20)).tpls.map (fun t => kinds 20 t.2.body) = [[], [], [.comp (some 201), .comp none]] ∧
    (check (infer (twice 20 21)) (guess (twice 20 21)) 5).rep = [] := by decide +kernel

end Verif.Props.Infer
