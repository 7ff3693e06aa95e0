import Verif.Infer

/-!
Lemmas on the inference of the templates of components: what is collected, what is marked, and the comparison of
the runs of the type checker with and without the marks.
-/

set_option linter.unusedVariables false
set_option linter.unusedSimpArgs false

namespace Verif.Types

/-! ### The text of a body -/

/-- Templates written in the assignments to `x`, in the order of the text. -/
def assigned (tpls : List (Nat × Def)) (x : Nat) : Stmt → List Nat
  | .seq a b => assigned tpls x a ++ assigned tpls x b
  | .ite _ a b => assigned tpls x a ++ assigned tpls x b
  | .loop _ b => assigned tpls x b
  | .block b => assigned tpls x b
  | .sub y _ _ e => if y = x then (tplOf tpls e).toList else []
  | .subp y _ _ _ _ e => if y = x then (tplOf tpls e).toList else []
  | _ => []

/-- Kinds with which `x` is declared, in the order of the text. -/
def kinds (x : Nat) : Stmt → List Kind
  | .seq a b => kinds x a ++ kinds x b
  | .ite _ a b => kinds x a ++ kinds x b
  | .loop _ b => kinds x b
  | .block b => kinds x b
  | .decl k y _ => if y = x then [k] else []
  | _ => []

/-- The text without the marks. -/
def bare : Stmt → Stmt
  | .seq a b => .seq (bare a) (bare b)
  | .ite c a b => .ite c (bare a) (bare b)
  | .loop c b => .loop c (bare b)
  | .block b => .block (bare b)
  | .decl (.comp _) x ds => .decl (.comp none) x ds
  | s => s

theorem mark_bare (s : Stmt) : ∀ env, bare (mark s env).1 = bare s := by
  induction s with
  | seq a b iha ihb => intro env; simp only [mark, bare, iha, ihb]
  | ite c a b iha ihb => intro env; simp only [mark, bare, iha, ihb]
  | loop c b ih => intro env; simp only [mark, bare, ih]
  | block b ih => intro env; simp only [mark, bare, ih]
  | decl k x ds => intro env; cases k <;> rfl
  | _ => intro env; rfl

theorem bare_ports (s : Stmt) : portsOf (bare s) = portsOf s := by
  induction s with
  | seq a b iha ihb => simp only [bare, portsOf, iha, ihb]
  | ite c a b iha ihb => simp only [bare, portsOf, iha, ihb]
  | loop c b ih => simp only [bare, portsOf, ih]
  | block b ih => simp only [bare, portsOf, ih]
  | decl k x ds => cases k <;> rfl
  | _ => rfl

theorem bare_flat (s : Stmt) : flatNames (bare s) = flatNames s := by
  induction s with
  | seq a b iha ihb => simp only [bare, flatNames, iha, ihb]
  | ite c a b iha ihb => simp only [bare, flatNames, iha, ihb]
  | loop c b ih => simp only [bare, flatNames, ih]
  | block b ih => simp only [bare, flatNames, ih]
  | decl k x ds => cases k <;> rfl
  | _ => rfl

theorem bare_vars (s : Stmt) : varNames (bare s) = varNames s := by
  induction s with
  | seq a b iha ihb => simp only [bare, varNames, iha, ihb]
  | ite c a b iha ihb => simp only [bare, varNames, iha, ihb]
  | loop c b ih => simp only [bare, varNames, ih]
  | block b ih => simp only [bare, varNames, ih]
  | decl k x ds => cases k <;> rfl
  | _ => rfl

theorem bare_ret (s : Stmt) : noRet (bare s) = noRet s := by
  induction s with
  | seq a b iha ihb => simp only [bare, noRet, iha, ihb]
  | ite c a b iha ihb => simp only [bare, noRet, iha, ihb]
  | loop c b ih => simp only [bare, noRet, ih]
  | block b ih => simp only [bare, noRet, ih]
  | decl k x ds => cases k <;> rfl
  | _ => rfl

theorem bare_assigned (tpls : List (Nat × Def)) (x : Nat) (s : Stmt) : assigned tpls x (bare s) = assigned tpls x s := by
  induction s with
  | seq a b iha ihb => simp only [bare, assigned, iha, ihb]
  | ite c a b iha ihb => simp only [bare, assigned, iha, ihb]
  | loop c b ih => simp only [bare, assigned, ih]
  | block b ih => simp only [bare, assigned, ih]
  | decl k x ds => cases k <;> rfl
  | _ => rfl

theorem inferDef_bare (tpls : List (Nat × Def)) (D : Def) : bare (inferDef tpls D).body = bare D.body := mark_bare _ _

theorem mark_portGet (tpls : List (Nat × Def)) (D : Def) (s : Nat) :
    portGet (inferDef tpls D).body s = portGet D.body s := by
  have : portsOf (inferDef tpls D).body = portsOf D.body := by
    rw [← bare_ports, inferDef_bare, bare_ports]
  unfold portGet
  rw [this]

theorem get_map {α β : Type} (f : α → β) (l : List (Nat × α)) (x : Nat) :
    get (l.map fun e => (e.1, f e.2)) x = (get l x).map f := by
  induction l with
  | nil => rfl
  | cons e l ih =>
    obtain ⟨y, a⟩ := e
    simp only [List.map_cons, get]
    split
    · rfl
    · exact ih

theorem infer_get (P : Prog) (f : Nat) : get (infer P).tpls f = (get P.tpls f).map (inferDef P.tpls) := get_map _ _ _

theorem infer_tplOf (P : Prog) (e : Exp) : tplOf (infer P).tpls e = tplOf P.tpls e := by
  induction e with
  | cond c a b ihc iha ihb => simp only [tplOf, iha, ihb]
  | call f es => simp only [tplOf, infer_get, Option.isSome_map]
  | par e ih => simp only [tplOf, ih]
  | _ => rfl

theorem infer_assigned (P : Prog) (x : Nat) (s : Stmt) : assigned (infer P).tpls x s = assigned P.tpls x s := by
  induction s with
  | seq a b iha ihb => simp only [assigned, iha, ihb]
  | ite c a b iha ihb => simp only [assigned, iha, ihb]
  | loop c b ih => simp only [assigned, ih]
  | block b ih => simp only [assigned, ih]
  | sub => simp only [assigned, infer_tplOf]
  | subp => simp only [assigned, infer_tplOf]
  | _ => rfl

theorem infer_fns (P : Prog) : (infer P).fns = P.fns := rfl

theorem infer_freeE (P : Prog) (e : Exp) : freeE (infer P) e = freeE P e := by
  induction e with
  | num => rfl
  | nil => rfl
  | port => rfl
  | _ => simp only [freeE, infer_fns, *]

theorem infer_freeS (P : Prog) (s : Stmt) : freeS (infer P) s = freeS P s := by
  induction s <;> simp only [freeS, infer_freeE, *]

theorem infer_structured (P : Prog) : structured (infer P) = structured P := by
  unfold structured
  congr 1
  · simp only [infer_freeS]; rfl
  · simp only [infer, List.all_map]
    congr 1
    funext t
    simp only [Function.comp]
    rw [← bare_ret, inferDef_bare, bare_ret]

theorem inferDef_once (tpls : List (Nat × Def)) (D : Def) : Once (inferDef tpls D) ↔ Once D := by
  unfold Once
  have h1 : flatNames (inferDef tpls D).body = flatNames D.body := by rw [← bare_flat, inferDef_bare, bare_flat]
  have h2 : varNames (inferDef tpls D).body = varNames D.body := by rw [← bare_vars, inferDef_bare, bare_vars]
  rw [h1, h2]
  rfl

theorem infer_once (P : Prog) : (∀ t ∈ (infer P).tpls, Once t.2) ↔ ∀ t ∈ P.tpls, Once t.2 := by
  simp only [infer, List.forall_mem_map, inferDef_once]

/-! ### What is collected -/

theorem assign_mem {tpls : List (Nat × Def)} {i : Path} {x y t : Nat} {e : Exp} (h : (x, t) ∈ (i.assign tpls y e).env) :
    (x, t) ∈ i.env ∨ (y = x ∧ tplOf tpls e = some t) := by
  unfold Path.assign at h
  split at h
  · split at h
    · rename_i u hu
      rcases List.mem_cons.mp h with h | h
      · injection h with h1 h2; subst h1 h2; exact .inr ⟨rfl, hu⟩
      · exact .inl h
    · exact .inl h
  · exact .inl h

theorem collect_mem {tpls : List (Nat × Def)} {x t : Nat} (s : Stmt) :
    ∀ i, (x, t) ∈ (collect tpls s i).env → (x, t) ∈ i.env ∨ t ∈ assigned tpls x s := by
  induction s with
  | seq a b iha ihb =>
    intro i h
    simp only [assigned, List.mem_append]
    rcases ihb _ h with h | h
    · rcases iha _ h with h | h
      · exact .inl h
      · exact .inr (.inl h)
    · exact .inr (.inr h)
  | ite c a b iha ihb =>
    intro i h
    simp only [assigned, List.mem_append]
    rcases ihb _ h with h | h
    · rcases iha _ h with h | h
      · exact .inl h
      · exact .inr (.inl h)
    · exact .inr (.inr h)
  | loop c b ih => intro i h; exact ih _ h
  | block b ih => intro i h; exact ih _ h
  | decl k y ds => intro i h; cases k <;> exact .inl h
  | sub y is o e =>
    intro i h
    rcases assign_mem h with h | ⟨rfl, ht⟩
    · exact .inl h
    · right; simp [assigned, ht]
  | subp y is s js o e =>
    intro i h
    rcases assign_mem h with h | ⟨rfl, ht⟩
    · exact .inl h
    · right; simp [assigned, ht]
  | _ => intro i h; exact .inl h

/-! ### What is marked -/

/-- The second text is the first with marks that are allowed. -/
def Marked (K : Nat → Nat → Prop) : Stmt → Stmt → Prop
  | .seq a b, s' => ∃ a' b', s' = .seq a' b' ∧ Marked K a a' ∧ Marked K b b'
  | .ite c a b, s' => ∃ a' b', s' = .ite c a' b' ∧ Marked K a a' ∧ Marked K b b'
  | .loop c b, s' => ∃ b', s' = .loop c b' ∧ Marked K b b'
  | .block b, s' => ∃ b', s' = .block b' ∧ Marked K b b'
  | .decl k x ds, s' => s' = .decl k x ds ∨ (k = .comp none ∧ ∃ t, s' = .decl (.comp (some t)) x ds ∧ K x t)
  | s, s' => s' = s

theorem Marked.refl {K : Nat → Nat → Prop} (s : Stmt) : Marked K s s := by
  induction s with
  | seq a b iha ihb => exact ⟨a, b, rfl, iha, ihb⟩
  | ite c a b iha ihb => exact ⟨a, b, rfl, iha, ihb⟩
  | loop c b ih => exact ⟨b, rfl, ih⟩
  | block b ih => exact ⟨b, rfl, ih⟩
  | decl => exact .inl rfl
  | _ => rfl

theorem mark_left (s : Stmt) : ∀ env e, e ∈ (mark s env).2 → e ∈ env := by
  induction s with
  | seq a b iha ihb => intro env e h; exact iha _ _ (ihb _ _ h)
  | ite c a b iha ihb => intro env e h; exact iha _ _ (ihb _ _ h)
  | loop c b ih => intro env e h; exact ih _ _ h
  | block b ih => intro env e h; exact ih _ _ h
  | decl k x ds =>
    intro env e h
    cases k with
    | comp i => exact (List.mem_filter.mp h).1
    | _ => exact h
  | _ => intro env e h; exact h

theorem mark_marked {K : Nat → Nat → Prop} (s : Stmt) (hb : bare s = s) :
    ∀ env, (∀ x t, (x, t) ∈ env → K x t) → Marked K s (mark s env).1 := by
  induction s with
  | seq a b iha ihb =>
    intro env h
    simp only [bare, Stmt.seq.injEq] at hb
    exact ⟨_, _, rfl, iha hb.1 _ h, ihb hb.2 _ fun x t hm => h x t (mark_left a _ _ hm)⟩
  | ite c a b iha ihb =>
    intro env h
    simp only [bare, Stmt.ite.injEq] at hb
    exact ⟨_, _, rfl, iha hb.2.1 _ h, ihb hb.2.2 _ fun x t hm => h x t (mark_left a _ _ hm)⟩
  | loop c b ih =>
    intro env h
    simp only [bare, Stmt.loop.injEq] at hb
    exact ⟨_, rfl, ih hb.2 _ h⟩
  | block b ih =>
    intro env h
    simp only [bare, Stmt.block.injEq] at hb
    exact ⟨_, rfl, ih hb _ h⟩
  | decl k x ds =>
    intro env h
    cases k with
    | comp i =>
      simp only [bare, Stmt.decl.injEq, Kind.comp.injEq, and_true] at hb
      subst hb
      simp only [mark]
      cases hg : get env x with
      | none => exact .inl rfl
      | some t => exact .inr ⟨rfl, t, rfl, h x t (get_mem hg)⟩
    | var => exact .inl rfl
    | sig io => exact .inl rfl
  | _ => intro env h; rfl

/-! ### Typed assignments agree -/

theorem tplOf_ty {P : Prog} {R Q S G} (hd : ∀ t ∈ P.tpls, get P.fns t.1 = none) {e : Exp} {ts : List FT}
    (h : HasTy P R Q S G e ts) : ∀ u, tplOf P.tpls e = some u → ts = [.tpl u] := by
  induction h with
  | par e t h ih => intro u hu; exact ih u hu
  | cond c a b t hc ha hb ihc iha ihb =>
    intro u hu
    simp only [tplOf] at hu
    split at hu
    · rename_i w hw
      injection hu with hu
      subst hu
      exact iha _ hw
    · exact ihb u hu
  | callf f es ds D r h hD hl hR hQ ih =>
    intro u hu
    simp only [tplOf] at hu
    split at hu
    · rename_i hs
      obtain ⟨D', hD'⟩ := Option.isSome_iff_exists.mp hs
      have := hd _ (get_mem hD')
      simp only at this
      rw [this] at hD
      cases hD
    · cases hu
  | callt f es ds D r h hf hD hl hR hQ ih =>
    intro u hu
    simp only [tplOf] at hu
    split at hu
    · injection hu with hu; subst hu; rfl
    · cases hu
  | _ => intro u hu; cases hu

theorem ok_assigned {P : Prog} {R Q S ret port} (hd : ∀ t ∈ P.tpls, get P.fns t.1 = none) {s : Stmt} {G G' : Gm}
    (h : OkS P R Q S ret port s G G') : ∀ x t, t ∈ assigned P.tpls x s → ∃ d, (x, Decl.comp (some t, d)) ∈ S := by
  have hne : ∀ {G : Gm} {e : Exp} {n u : Nat}, HasTy P R Q S G e [.ar n] → tplOf P.tpls e = some u → False := by
    intro G e n u he hu
    have := tplOf_ty hd he u hu
    cases this
  induction h with
  | seq a b G1 G2 G3 ha hb iha ihb =>
    intro x t h
    simp only [assigned, List.mem_append] at h
    rcases h with h | h
    · exact iha x t h
    · exact ihb x t h
  | ite c a b G Ga Gb hc ha hb iha ihb =>
    intro x t h
    simp only [assigned, List.mem_append] at h
    rcases h with h | h
    · exact iha x t h
    · exact ihb x t h
  | loop c b G Gb hc hb ih => intro x t h; exact ih x t h
  | block b G Gb hb ih => intro x t h; exact ih x t h
  | svar y is ts e d G h hs hx hS hd he =>
    intro x t hm
    simp only [assigned] at hm
    split at hm
    · exact (hne he (Option.mem_toList.mp hm)).elim
    · cases hm
  | ssig y is ts o e io d G h hs hx hG ho hd he =>
    intro x t hm
    simp only [assigned] at hm
    split at hm
    · exact (hne he (Option.mem_toList.mp hm)).elim
    · cases hm
  | scomp y is ts e u d G h hs hx hG hdim he =>
    intro x t hm
    simp only [assigned] at hm
    split at hm
    · rename_i hxy
      subst hxy
      have := tplOf_ty hd he t (Option.mem_toList.mp hm)
      injection this with this _
      injection this with this
      subst this
      exact ⟨d, hx⟩
    · cases hm
  | subp y is ts s js us o e t d D pd G h hs h' hs' hx hG hd hD hp ho hj he =>
    intro x t hm
    simp only [assigned] at hm
    split at hm
    · exact (hne he (Option.mem_toList.mp hm)).elim
    · cases hm
  | _ => intro x t h; cases h

end Verif.Types
