import Verif.ExpandRun

/-!
# When the rewriting of constants panics

The names of a body as `analyze_symbols` wants them
(`type_analysis/src/analyzers/symbol_analysis.rs:109-150`), and the bodies on which
`handle_function_constants` and `handle_bus_constants` do not panic.
-/

set_option linter.unusedVariables false
set_option linter.unusedSimpArgs false

namespace Verif.Expand

/-- The symbols of one declaration, `b` the names of the block and `vis` all that can be seen
(`symbol_analysis.rs:211-231`). -/
def NamedSyms : List String → List String → List Sym → Prop
  | _, _, [] => True
  | b, vis, s :: ss =>
      (∀ y ∈ readsAll s.dims, y ∈ vis) ∧ s.name ∉ b ∧
      (∀ y ∈ readsAll s.subs, y ∈ s.name :: vis) ∧ NamedSyms (s.name :: b) (s.name :: vis) ss

mutual
/-- Every name that is read or assigned can be seen, and no name is declared twice in a block
(`symbol_analysis.rs:176-300`). -/
def Named : List String → List String → Stmt → Prop
  | b, vis, .ifThen c a => (∀ y ∈ reads c, y ∈ vis) ∧ Named b vis a ∧ intro a = []
  | b, vis, .ifElse c a d =>
      (∀ y ∈ reads c, y ∈ vis) ∧ Named b vis a ∧ intro a = [] ∧ Named b vis d ∧ intro d = []
  | b, vis, .loop c s => (∀ y ∈ reads c, y ∈ vis) ∧ Named b vis s ∧ intro s = []
  | _, vis, .ret e => ∀ y ∈ reads e, y ∈ vis
  | b, vis, .init syms tail =>
      NamedSyms b vis syms ∧
      ∀ p ∈ tail, p.1 ∈ intro (.init syms tail) ++ vis ∧
        ∀ y ∈ reads p.2, y ∈ intro (.init syms tail) ++ vis
  | _, vis, .subst x _ idx e => x ∈ vis ∧ (∀ y ∈ readsAll idx, y ∈ vis) ∧ ∀ y ∈ reads e, y ∈ vis
  | _, vis, .under e => ∀ y ∈ reads e, y ∈ vis
  | _, vis, .ceq a d => (∀ y ∈ reads a, y ∈ vis) ∧ ∀ y ∈ reads d, y ∈ vis
  | _, vis, .log es => ∀ y ∈ readsAll es, y ∈ vis
  | _, vis, .check e => ∀ y ∈ reads e, y ∈ vis
  | _, vis, .block ss => NamedAll [] vis ss
/-- The statements of a block, one after another. -/
def NamedAll : List String → List String → List Stmt → Prop
  | _, _, [] => True
  | b, vis, s :: ss => Named b vis s ∧ NamedAll (intro s ++ b) (intro s ++ vis) ss
end

mutual
/-- No tuple and no anonymous component is left in an expression. -/
def CleanEx : Ex → Prop
  | .num _ => True
  | .var _ _ idx => CleanExs idx
  | .node _ es => CleanExs es
  | .switch c t f => CleanEx c ∧ CleanEx t ∧ CleanEx f
  | .sugar => False
/-- The same for a list. -/
def CleanExs : List Ex → Prop
  | [] => True
  | e :: es => CleanEx e ∧ CleanExs es
end

mutual
/-- In each declaration no dimension reads a name of the same declaration, and what it contains is
free of tuples and anonymous components. -/
def Apart : Stmt → Prop
  | .ifThen _ a => Apart a
  | .ifElse _ a b => Apart a ∧ Apart b
  | .loop _ s => Apart s
  | .init syms _ =>
      ∀ s ∈ syms, CleanExs s.dims ∧ CleanExs s.subs ∧
        ∀ q ∈ syms, q.name ∉ readsAll s.dims
  | .block ss => ApartAll ss
  | _ => True
/-- The same for a list. -/
def ApartAll : List Stmt → Prop
  | [] => True
  | s :: ss => Apart s ∧ ApartAll ss
end

mutual
theorem hasConst_total (E : Env Bool) : ∀ e, CleanEx e → (∀ y ∈ reads e, y ∈ E.keys.flatten) →
    ∃ b, hasConst E e = some b
  | .num n, _, _ => ⟨true, rfl⟩
  | .var x acc idx, _, h => by
      simp only [hasConst]
      exact (get_some_iff E x).2 (h x (by simp [reads]))
  | .node k es, hc, h => by
      simp only [CleanEx] at hc
      obtain ⟨b, hb⟩ := hasConstAll_total E es hc (by simpa [reads] using h)
      cases k with
      | arr => exact ⟨false, rfl⟩
      | uni => exact ⟨false, rfl⟩
      | op n => exact ⟨b, by simp only [hasConst]; exact hb⟩
      | call n => exact ⟨b, by simp only [hasConst]; exact hb⟩
      | bus n => exact ⟨b, by simp only [hasConst]; exact hb⟩
  | .switch c t f, hc, h => by
      simp only [CleanEx] at hc
      simp only [reads, List.mem_append] at h
      obtain ⟨b1, h1⟩ := hasConst_total E c hc.1 (fun y hy => h y (Or.inl hy))
      obtain ⟨b2, h2⟩ := hasConst_total E t hc.2.1 (fun y hy => h y (Or.inr (Or.inl hy)))
      obtain ⟨b3, h3⟩ := hasConst_total E f hc.2.2 (fun y hy => h y (Or.inr (Or.inr hy)))
      simp only [hasConst]
      rw [h1]
      cases b1 with
      | false => exact ⟨false, rfl⟩
      | true =>
        simp only [Option.bind_eq_bind, Option.bind_some, if_true, h2]
        cases b2 with
        | false => exact ⟨false, rfl⟩
        | true => exact ⟨b3, h3⟩
  | .sugar, hc, _ => by simp [CleanEx] at hc
theorem hasConstAll_total (E : Env Bool) : ∀ es, CleanExs es →
    (∀ y ∈ readsAll es, y ∈ E.keys.flatten) → ∃ b, hasConstAll E es = some b
  | [], _, _ => ⟨true, rfl⟩
  | e :: es, hc, h => by
      simp only [CleanExs] at hc
      simp only [readsAll, List.mem_append] at h
      obtain ⟨b1, h1⟩ := hasConst_total E e hc.1 (fun y hy => h y (Or.inl hy))
      obtain ⟨b2, h2⟩ := hasConstAll_total E es hc.2 (fun y hy => h y (Or.inr hy))
      simp only [hasConstAll]
      rw [h1]
      cases b1 with
      | false => exact ⟨false, rfl⟩
      | true => exact ⟨b2, h2⟩
end

theorem applySubs_total (x : String) : ∀ (es : List Ex) (E : Env Bool), CleanExs es →
    (∀ y ∈ readsAll es, y ∈ E.keys.flatten) → x ∈ E.keys.flatten →
    ∃ E', applySubs x es E = some E' ∧ E'.keys = E.keys := by
  intro es
  induction es with
  | nil => intro E _ _ _; exact ⟨E, rfl, rfl⟩
  | cons e es ih =>
    intro E hc h hx
    simp only [CleanExs] at hc
    simp only [readsAll, List.mem_append] at h
    obtain ⟨b, hb⟩ := hasConst_total E e hc.1 (fun y hy => h y (Or.inl hy))
    obtain ⟨w, hw⟩ := (get_some_iff E x).2 hx
    obtain ⟨E', h1, h2⟩ := ih (E.set x (w && b)) hc.2
      (fun y hy => by rw [keys_set]; exact h y (Or.inr hy)) (by rw [keys_set]; exact hx)
    refine ⟨E', ?_, by rw [h2, keys_set]⟩
    simp only [applySubs, hw, hb, Option.bind_eq_bind, Option.bind_some]
    exact h1

theorem applySyms_total : ∀ (syms : List Sym) (E : Env Bool),
    (∀ s ∈ syms, CleanExs s.subs ∧ (∀ y ∈ readsAll s.subs, y ∈ E.keys.flatten) ∧
      s.name ∈ E.keys.flatten) →
    ∃ E', applySyms syms E = some E' ∧ E'.keys = E.keys := by
  intro syms
  induction syms with
  | nil => intro E _; exact ⟨E, rfl, rfl⟩
  | cons s ss ih =>
    intro E h
    obtain ⟨a, b, c⟩ := h s (by simp)
    obtain ⟨E1, h1, k1⟩ := applySubs_total s.name s.subs E a b c
    obtain ⟨E2, h2, k2⟩ := ih E1 (fun q hq => by rw [k1]; exact h q (by simp [hq]))
    refine ⟨E2, ?_, by rw [k2, k1]⟩
    simp only [applySyms, h1, Option.bind_eq_bind, Option.bind_some]
    exact h2

theorem flagSyms_total (E : Env Bool) : ∀ (syms : List Sym),
    (∀ s ∈ syms, s.name ∈ E.keys.flatten) → ∃ syms', flagSyms E syms = some syms' := by
  intro syms
  induction syms with
  | nil => intro _; exact ⟨[], rfl⟩
  | cons s ss ih =>
    intro h
    obtain ⟨b, hb⟩ := (get_some_iff E s.name).2 (h s (by simp))
    obtain ⟨rest, hr⟩ := ih (fun q hq => h q (by simp [hq]))
    exact ⟨{ s with const := b } :: rest, by simp [flagSyms, hb, hr]⟩

theorem addSyms_keys : ∀ (syms : List Sym) (E : Env Bool),
    (addSyms E syms).keys = addKeys (syms.map Sym.name).reverse E.keys := by
  intro syms
  induction syms with
  | nil => intro E; simp [addSyms, addKeys_nil]
  | cons s ss ih =>
    intro E
    have : addSyms E (s :: ss) = addSyms (E.add s.name s.tag) ss := rfl
    rw [this, ih, keys_add, addKeys_append]
    simp

theorem addFlags_keys : ∀ (syms : List Sym) (E : Env Bool),
    (addFlags E syms).keys = addKeys (syms.map Sym.name).reverse E.keys := by
  intro syms
  induction syms with
  | nil => intro E; simp [addFlags, addKeys_nil]
  | cons s ss ih =>
    intro E
    have : addFlags E (s :: ss) = addFlags (E.add s.name s.const) ss := rfl
    rw [this, ih, keys_add, addKeys_append]
    simp

/-- What the names of a declaration give. -/
theorem namedSyms_mem : ∀ (syms : List Sym) (b vis : List String), NamedSyms b vis syms →
    ∀ s ∈ syms, (∀ y ∈ readsAll s.dims, y ∈ (syms.map Sym.name).reverse ++ vis) ∧
      ∀ y ∈ readsAll s.subs, y ∈ (syms.map Sym.name).reverse ++ vis := by
  intro syms
  induction syms with
  | nil => intro b vis _ s hs; simp at hs
  | cons q ss ih =>
    intro b vis h s hs
    simp only [NamedSyms] at h
    rcases List.mem_cons.1 hs with rfl | hs
    · refine ⟨fun y hy => ?_, fun y hy => ?_⟩
      · have := h.1 y hy
        simp [this]
      · have := h.2.2.1 y hy
        simp only [List.mem_cons] at this
        simp only [List.map_cons, List.reverse_cons, List.mem_append, List.mem_reverse,
          List.mem_cons, List.not_mem_nil, or_false]
        rcases this with rfl | h
        · exact Or.inl (Or.inr rfl)
        · exact Or.inr h
    · obtain ⟨h1, h2⟩ := ih _ _ h.2.2.2 s hs
      refine ⟨fun y hy => ?_, fun y hy => ?_⟩
      · have := h1 y hy
        simp only [List.map_cons, List.reverse_cons, List.mem_append, List.mem_cons,
          List.not_mem_nil, or_false] at this ⊢
        tauto
      · have := h2 y hy
        simp only [List.map_cons, List.reverse_cons, List.mem_append, List.mem_cons,
          List.not_mem_nil, or_false] at this ⊢
        tauto

theorem namedSyms_flag (E : Env Bool) : ∀ (syms : List Sym) (b vis : List String),
    NamedSyms b vis (syms.map (flag E)) ↔ NamedSyms b vis syms := by
  intro syms
  induction syms with
  | nil => intro b vis; rfl
  | cons s ss ih =>
    intro b vis
    simp only [List.map_cons, NamedSyms]
    rw [show (flag E s).name = s.name from rfl, show (flag E s).dims = s.dims from rfl,
      show (flag E s).subs = s.subs from rfl, ih]

/-- The declarations among the statements of a block. -/
theorem named_init_mem : ∀ (ss : List Stmt) (b vis : List String), NamedAll b vis ss →
    ∀ syms tail, .init syms tail ∈ ss → ∀ s ∈ syms, s.name ∈ introAll ss ∧
      ∀ y ∈ readsAll s.subs, y ∈ introAll ss ++ vis := by
  intro ss
  induction ss with
  | nil => intro b vis _ syms tail hm; simp at hm
  | cons a ss ih =>
    intro b vis h syms tail hm s hs
    simp only [NamedAll] at h
    simp only [introAll]
    rcases List.mem_cons.1 hm with rfl | hm
    · have h0 := h.1
      simp only [Named] at h0
      obtain ⟨_, h2⟩ := namedSyms_mem syms b vis h0.1 s hs
      refine ⟨?_, fun y hy => ?_⟩
      · simp only [intro, List.mem_append, List.mem_reverse]
        exact Or.inr (List.mem_map.2 ⟨s, hs, rfl⟩)
      · have := h2 y hy
        simp only [intro, List.mem_append] at this ⊢
        tauto
    · obtain ⟨h1, h2⟩ := ih _ _ h.2 syms tail hm s hs
      refine ⟨by simp [h1], fun y hy => ?_⟩
      have := h2 y hy
      simp only [List.mem_append] at this ⊢
      tauto

theorem applyAll_total : ∀ (ss : List Stmt) (E : Env Bool),
    (∀ syms tail, .init syms tail ∈ ss → ∀ s ∈ syms, CleanExs s.subs ∧
      s.name ∈ E.keys.flatten ∧ ∀ y ∈ readsAll s.subs, y ∈ E.keys.flatten) →
    ∃ ss' E', applyAll ss E = some (ss', E') ∧ E'.keys = E.keys ∧
      (∀ b vis, NamedAll b vis ss → NamedAll b vis ss') ∧ (ApartAll ss → ApartAll ss') := by
  intro ss
  induction ss with
  | nil => intro E _; exact ⟨[], E, rfl, rfl, fun _ _ h => h, fun h => h⟩
  | cons a ss ih =>
    intro E h
    by_cases hinit : ∃ syms tail, a = .init syms tail
    · obtain ⟨syms, tail, rfl⟩ := hinit
      obtain ⟨E1, h1, k1⟩ := applySyms_total syms E fun s hs => by
        obtain ⟨a, b, c⟩ := h syms tail (by simp) s hs
        exact ⟨a, c, b⟩
      obtain ⟨syms', h2⟩ := flagSyms_total E1 syms fun s hs => by
        rw [k1]; exact (h syms tail (by simp) s hs).2.1
      obtain ⟨rest, E2, h3, k3, n3, a3⟩ := ih E1 fun sy tl hm => by
        rw [k1]; exact h sy tl (by simp [hm])
      have hf := flagSyms_eq _ _ _ h2
      have hn : intro (.init syms' tail) = intro (.init syms tail) := by
        simp only [intro, hf, List.map_map]; rfl
      refine ⟨.init syms' tail :: rest, E2, ?_, by rw [k3, k1], ?_, ?_⟩
      · simp [applyAll, h1, h2, h3]
      · intro b vis hN
        simp only [NamedAll] at hN ⊢
        rw [hn]
        refine ⟨?_, n3 _ _ hN.2⟩
        have h0 := hN.1
        simp only [Named] at h0 ⊢
        rw [hn]
        refine ⟨?_, h0.2⟩
        rw [hf, namedSyms_flag]
        exact h0.1
      · intro hA
        simp only [ApartAll] at hA ⊢
        refine ⟨?_, a3 hA.2⟩
        have h0 := hA.1
        simp only [Apart] at h0 ⊢
        rw [hf]
        intro s hs
        obtain ⟨q, hq, rfl⟩ := List.mem_map.1 hs
        obtain ⟨c1, c2, c3⟩ := h0 q hq
        refine ⟨c1, c2, fun r hr => ?_⟩
        obtain ⟨r', hr', rfl⟩ := List.mem_map.1 hr
        exact c3 r' hr'
    · have hstep : applyAll (a :: ss) E = (applyAll ss E).bind fun p => some (a :: p.1, p.2) := by
        cases a <;> first | rfl | exact absurd ⟨_, _, rfl⟩ hinit
      obtain ⟨rest, E2, h3, k3, n3, a3⟩ := ih E fun sy tl hm => h sy tl (by simp [hm])
      refine ⟨a :: rest, E2, by rw [hstep, h3]; rfl, k3, ?_, ?_⟩
      · intro b vis hN
        simp only [NamedAll] at hN ⊢
        exact ⟨hN.1, n3 _ _ hN.2⟩
      · intro hA
        simp only [ApartAll] at hA ⊢
        exact ⟨hA.1, a3 hA.2⟩

theorem apart_init_mem : ∀ (ss : List Stmt), ApartAll ss → ∀ syms tail, .init syms tail ∈ ss →
    ∀ s ∈ syms, CleanExs s.subs := by
  intro ss
  induction ss with
  | nil => intro _ syms tail hm; simp at hm
  | cons a ss ih =>
    intro h syms tail hm s hs
    simp only [ApartAll] at h
    rcases List.mem_cons.1 hm with rfl | hm
    · have h0 := h.1
      simp only [Apart] at h0
      exact (h0 s hs).2.1
    · exact ih h.2 syms tail hm s hs

mutual
theorem infer_total : ∀ (s : Stmt) (b vis : List String) (E : Env Bool), Named b vis s → Apart s →
    (∀ y ∈ vis, y ∈ E.keys.flatten) → E ≠ [] →
    ∃ s' E', infer s E = some (s', E') ∧ E'.keys = addKeys (intro s) E.keys ∧
      intro s' = intro s ∧ Named b vis s' ∧ Apart s'
  | .ifThen c a, b, vis, E, hn, ha, hv, hE => by
      simp only [Named] at hn
      simp only [Apart] at ha
      obtain ⟨a', E1, h1, k1, i1, n1, p1⟩ := infer_total a b vis E hn.2.1 ha hv hE
      refine ⟨.ifThen c a', E1, by simp [infer, h1], ?_, rfl, ?_, ?_⟩
      · rw [k1, hn.2.2]; rfl
      · simp only [Named]; exact ⟨hn.1, n1, by rw [i1, hn.2.2]⟩
      · simp only [Apart]; exact p1
  | .ifElse c a d, b, vis, E, hn, ha, hv, hE => by
      simp only [Named] at hn
      simp only [Apart] at ha
      obtain ⟨hn1, hn2, hn3, hn4, hn5⟩ := hn
      obtain ⟨a', E1, h1, k1, i1, n1, p1⟩ := infer_total a b vis E hn2 ha.1 hv hE
      rw [hn3, addKeys_nil] at k1
      obtain ⟨d', E2, h2, k2, i2, n2, p2⟩ := infer_total d b vis E1 hn4 ha.2
        (by rw [k1]; exact hv) ((keys_ne _).1 (by rw [k1]; exact (keys_ne _).2 hE))
      rw [hn5, addKeys_nil] at k2
      refine ⟨.ifElse c a' d', E2, by simp [infer, h1, h2], ?_, rfl, ?_, ?_⟩
      · rw [k2, k1]; simp [intro, addKeys_nil]
      · simp only [Named]; exact ⟨hn1, n1, by rw [i1, hn3], n2, by rw [i2, hn5]⟩
      · simp only [Apart]; exact ⟨p1, p2⟩
  | .loop c a, b, vis, E, hn, ha, hv, hE => by
      simp only [Named] at hn
      simp only [Apart] at ha
      obtain ⟨a', E1, h1, k1, i1, n1, p1⟩ := infer_total a b vis E hn.2.1 ha hv hE
      refine ⟨.loop c a', E1, by simp [infer, h1], ?_, rfl, ?_, ?_⟩
      · rw [k1, hn.2.2]; rfl
      · simp only [Named]; exact ⟨hn.1, n1, by rw [i1, hn.2.2]⟩
      · simp only [Apart]; exact p1
  | .subst x acc idx e, b, vis, E, hn, ha, hv, hE => by
      have hn0 := hn
      simp only [Named] at hn
      obtain ⟨w, hw⟩ := (get_some_iff E x).2 (hv x hn.1)
      refine ⟨.subst x acc idx e, E.set x false, by simp [infer, hw], ?_, rfl, hn0, ha⟩
      rw [keys_set]; simp [intro, addKeys_nil]
  | .init syms tail, b, vis, E, hn, ha, hv, hE => by
      refine ⟨.init syms tail, addSyms E syms, by simp only [infer], ?_, rfl, hn, ha⟩
      rw [addSyms_keys]; rfl
  | .block ss, b, vis, E, hn, ha, hv, hE => by
      simp only [Named] at hn
      simp only [Apart] at ha
      obtain ⟨ss1, E1, h1, k1, n1, p1, i1⟩ := inferAll_total ss [] vis E.push hn ha
        (by rw [keys_push]; simpa using hv) (by simp [Env.push])
      have hE1 : E1.keys.flatten = introAll ss ++ E.keys.flatten := by
        rw [k1, keys_push]; simp [addKeys]
      obtain ⟨ss2, E2, h2, k2, n2, p2⟩ := applyAll_total ss1 E1 (by
        intro syms tail hm s hs
        obtain ⟨q1, q2⟩ := named_init_mem ss1 _ _ n1 syms tail hm s hs
        rw [i1] at q1 q2
        refine ⟨apart_init_mem ss1 p1 syms tail hm s hs, by rw [hE1]; simp [q1], fun y hy => ?_⟩
        rw [hE1]
        rcases List.mem_append.1 (q2 y hy) with h | h
        · simp [h]
        · exact List.mem_append_right _ (hv y h))
      refine ⟨.block ss2, E2.pop, by simp [infer, h1, h2], ?_, rfl, ?_, ?_⟩
      · rw [keys_pop, k2, k1, keys_push]; exact (addKeys_nil _).symm
      · simp only [Named]; exact n2 _ _ n1
      · simp only [Apart]; exact p2 p1
  | .ret e, b, vis, E, hn, ha, hv, hE =>
      ⟨.ret e, E, by simp only [infer], by simp [intro, addKeys_nil], rfl, hn, ha⟩
  | .under e, b, vis, E, hn, ha, hv, hE =>
      ⟨.under e, E, by simp only [infer], by simp [intro, addKeys_nil], rfl, hn, ha⟩
  | .ceq a d, b, vis, E, hn, ha, hv, hE =>
      ⟨.ceq a d, E, by simp only [infer], by simp [intro, addKeys_nil], rfl, hn, ha⟩
  | .log es, b, vis, E, hn, ha, hv, hE =>
      ⟨.log es, E, by simp only [infer], by simp [intro, addKeys_nil], rfl, hn, ha⟩
  | .check e, b, vis, E, hn, ha, hv, hE =>
      ⟨.check e, E, by simp only [infer], by simp [intro, addKeys_nil], rfl, hn, ha⟩
theorem inferAll_total : ∀ (ss : List Stmt) (b vis : List String) (E : Env Bool),
    NamedAll b vis ss → ApartAll ss → (∀ y ∈ vis, y ∈ E.keys.flatten) → E ≠ [] →
    ∃ ss' E', inferAll ss E = some (ss', E') ∧ E'.keys = addKeys (introAll ss) E.keys ∧
      NamedAll b vis ss' ∧ ApartAll ss' ∧ introAll ss' = introAll ss
  | [], b, vis, E, hn, ha, hv, hE =>
      ⟨[], E, by simp only [inferAll], by simp [introAll, addKeys_nil], hn, ha, rfl⟩
  | s :: ss, b, vis, E, hn, ha, hv, hE => by
      simp only [NamedAll] at hn
      simp only [ApartAll] at ha
      obtain ⟨s', E1, h1, k1, i1, n1, p1⟩ := infer_total s b vis E hn.1 ha.1 hv hE
      have hK := (keys_ne E).2 hE
      obtain ⟨ss', E2, h2, k2, n2, p2, i2⟩ := inferAll_total ss _ _ E1 hn.2 ha.2
        (by
          intro y hy
          rw [k1, mem_addKeys _ _ hK]
          rcases List.mem_append.1 hy with h | h
          · exact Or.inl h
          · exact Or.inr (hv y h))
        ((keys_ne _).1 (by rw [k1]; cases hc : E.keys with
          | nil => exact absurd hc hK
          | cons a K => simp [addKeys]))
      refine ⟨s' :: ss', E2, by simp [inferAll, h1, h2], ?_, ?_, ?_, ?_⟩
      · rw [k2, k1, addKeys_append]; rfl
      · simp only [NamedAll]; rw [i1]; exact ⟨n1, n2⟩
      · simp only [ApartAll]; exact ⟨p1, p2⟩
      · simp only [introAll]; rw [i1, i2]
end

theorem checkDims_total (E : Env Bool) : ∀ (ds : List Ex), CleanExs ds →
    (∀ y ∈ readsAll ds, y ∈ E.keys.flatten) → ∃ r, checkDims E ds = some r := by
  intro ds
  induction ds with
  | nil => intro _ _; exact ⟨[], rfl⟩
  | cons d ds ih =>
    intro hc h
    simp only [CleanExs] at hc
    simp only [readsAll, List.mem_append] at h
    obtain ⟨b, hb⟩ := hasConst_total E d hc.1 (fun y hy => h y (Or.inl hy))
    obtain ⟨r, hr⟩ := ih hc.2 (fun y hy => h y (Or.inr hy))
    exact ⟨if b then r else d :: r, by simp [checkDims, hb, hr]⟩

theorem checkSyms_total (E : Env Bool) : ∀ (syms : List Sym),
    (∀ s ∈ syms, CleanExs s.dims ∧ ∀ y ∈ readsAll s.dims, y ∈ E.keys.flatten) →
    ∃ r, checkSyms E syms = some r := by
  intro syms
  induction syms with
  | nil => intro _; exact ⟨[], rfl⟩
  | cons s ss ih =>
    intro h
    obtain ⟨r1, h1⟩ := checkDims_total E s.dims (h s (by simp)).1 (h s (by simp)).2
    obtain ⟨r2, h2⟩ := ih fun q hq => h q (by simp [hq])
    exact ⟨r1 ++ r2, by simp [checkSyms, h1, h2]⟩

mutual
theorem verify_total : ∀ (s : Stmt) (b vis : List String) (E : Env Bool), Named b vis s → Apart s →
    (∀ y ∈ vis, y ∈ E.keys.flatten) → E ≠ [] →
    ∃ r E', verify s E = some (r, E') ∧ E'.keys = addKeys (intro s) E.keys
  | .ifThen c a, b, vis, E, hn, ha, hv, hE => by
      simp only [Named] at hn
      simp only [Apart] at ha
      obtain ⟨r, E1, h1, k1⟩ := verify_total a b vis E hn.2.1 ha hv hE
      exact ⟨r, E1, by simp only [verify]; exact h1, by rw [k1, hn.2.2]; rfl⟩
  | .ifElse c a d, b, vis, E, hn, ha, hv, hE => by
      simp only [Named] at hn
      simp only [Apart] at ha
      obtain ⟨hn1, hn2, hn3, hn4, hn5⟩ := hn
      obtain ⟨r1, E1, h1, k1⟩ := verify_total a b vis E hn2 ha.1 hv hE
      rw [hn3, addKeys_nil] at k1
      obtain ⟨r2, E2, h2, k2⟩ := verify_total d b vis E1 hn4 ha.2
        (by rw [k1]; exact hv) ((keys_ne _).1 (by rw [k1]; exact (keys_ne _).2 hE))
      rw [hn5, addKeys_nil] at k2
      exact ⟨r1 ++ r2, E2, by simp [verify, h1, h2], by rw [k2, k1]; simp [intro, addKeys_nil]⟩
  | .loop c a, b, vis, E, hn, ha, hv, hE => by
      simp only [Named] at hn
      simp only [Apart] at ha
      obtain ⟨r, E1, h1, k1⟩ := verify_total a b vis E hn.2.1 ha hv hE
      exact ⟨r, E1, by simp only [verify]; exact h1, by rw [k1, hn.2.2]; rfl⟩
  | .init syms tail, b, vis, E, hn, ha, hv, hE => by
      simp only [Named] at hn
      simp only [Apart] at ha
      obtain ⟨r, hr⟩ := checkSyms_total E syms (by
        intro s hs
        obtain ⟨c1, c2, c3⟩ := ha s hs
        refine ⟨c1, fun y hy => ?_⟩
        have := (namedSyms_mem syms b vis hn.1 s hs).1 y hy
        rcases List.mem_append.1 this with h | h
        · rw [List.mem_reverse] at h
          obtain ⟨q, hq, rfl⟩ := List.mem_map.1 h
          exact absurd hy (c3 q hq)
        · exact hv y h)
      exact ⟨r, addFlags E syms, by simp [verify, hr], by rw [addFlags_keys]; rfl⟩
  | .block ss, b, vis, E, hn, ha, hv, hE => by
      simp only [Named] at hn
      simp only [Apart] at ha
      obtain ⟨r, E1, h1, k1⟩ := verifyAll_total ss [] vis E.push hn ha
        (by rw [keys_push]; simpa using hv) (by simp [Env.push])
      refine ⟨r, E1.pop, by simp [verify, h1], ?_⟩
      rw [keys_pop, k1, keys_push]; exact (addKeys_nil _).symm
  | .subst x acc idx e, b, vis, E, hn, ha, hv, hE =>
      ⟨[], E, by simp only [verify], by simp [intro, addKeys_nil]⟩
  | .ret e, b, vis, E, hn, ha, hv, hE =>
      ⟨[], E, by simp only [verify], by simp [intro, addKeys_nil]⟩
  | .under e, b, vis, E, hn, ha, hv, hE =>
      ⟨[], E, by simp only [verify], by simp [intro, addKeys_nil]⟩
  | .ceq a d, b, vis, E, hn, ha, hv, hE =>
      ⟨[], E, by simp only [verify], by simp [intro, addKeys_nil]⟩
  | .log es, b, vis, E, hn, ha, hv, hE =>
      ⟨[], E, by simp only [verify], by simp [intro, addKeys_nil]⟩
  | .check e, b, vis, E, hn, ha, hv, hE =>
      ⟨[], E, by simp only [verify], by simp [intro, addKeys_nil]⟩
theorem verifyAll_total : ∀ (ss : List Stmt) (b vis : List String) (E : Env Bool),
    NamedAll b vis ss → ApartAll ss → (∀ y ∈ vis, y ∈ E.keys.flatten) → E ≠ [] →
    ∃ r E', verifyAll ss E = some (r, E') ∧ E'.keys = addKeys (introAll ss) E.keys
  | [], b, vis, E, hn, ha, hv, hE =>
      ⟨[], E, by simp only [verifyAll], by simp [introAll, addKeys_nil]⟩
  | s :: ss, b, vis, E, hn, ha, hv, hE => by
      simp only [NamedAll] at hn
      simp only [ApartAll] at ha
      obtain ⟨r1, E1, h1, k1⟩ := verify_total s b vis E hn.1 ha.1 hv hE
      have hK := (keys_ne E).2 hE
      obtain ⟨r2, E2, h2, k2⟩ := verifyAll_total ss _ _ E1 hn.2 ha.2
        (by
          intro y hy
          rw [k1, mem_addKeys _ _ hK]
          rcases List.mem_append.1 hy with h | h
          · exact Or.inl h
          · exact Or.inr (hv y h))
        ((keys_ne _).1 (by rw [k1]; cases hc : E.keys with
          | nil => exact absurd hc hK
          | cons a K => simp [addKeys]))
      refine ⟨r1 ++ r2, E2, by simp [verifyAll, h1, h2], ?_⟩
      rw [k2, k1, addKeys_append]; rfl
end

theorem namedSyms_mono : ∀ (syms : List Sym) (b b' vis : List String), (∀ y ∈ b', y ∈ b) →
    NamedSyms b vis syms → NamedSyms b' vis syms := by
  intro syms
  induction syms with
  | nil => intro b b' vis _ _; trivial
  | cons s ss ih =>
    intro b b' vis hb h
    simp only [NamedSyms] at h ⊢
    refine ⟨h.1, fun hm => h.2.1 (hb _ hm), h.2.2.1, ih _ _ _ ?_ h.2.2.2⟩
    intro y hy
    rcases List.mem_cons.1 hy with rfl | hy
    · simp
    · exact List.mem_cons_of_mem _ (hb y hy)

theorem named_mono : ∀ (s : Stmt) (b b' vis : List String), (∀ y ∈ b', y ∈ b) → Named b vis s →
    Named b' vis s
  | .ifThen c a, b, b', vis, hb, h => by
      simp only [Named] at h ⊢; exact ⟨h.1, named_mono a b b' vis hb h.2.1, h.2.2⟩
  | .ifElse c a d, b, b', vis, hb, h => by
      simp only [Named] at h ⊢
      exact ⟨h.1, named_mono a b b' vis hb h.2.1, h.2.2.1, named_mono d b b' vis hb h.2.2.2.1,
        h.2.2.2.2⟩
  | .loop c a, b, b', vis, hb, h => by
      simp only [Named] at h ⊢; exact ⟨h.1, named_mono a b b' vis hb h.2.1, h.2.2⟩
  | .init syms tail, b, b', vis, hb, h => by
      simp only [Named] at h ⊢
      exact ⟨namedSyms_mono syms b b' vis hb h.1, h.2⟩
  | .block ss, b, b', vis, hb, h => by simpa only [Named] using h
  | .subst x acc idx e, b, b', vis, hb, h => by simpa only [Named] using h
  | .ret e, b, b', vis, hb, h => by simpa only [Named] using h
  | .under e, b, b', vis, hb, h => by simpa only [Named] using h
  | .ceq a d, b, b', vis, hb, h => by simpa only [Named] using h
  | .log es, b, b', vis, hb, h => by simpa only [Named] using h
  | .check e, b, b', vis, hb, h => by simpa only [Named] using h

theorem namedAll_mono : ∀ (ss : List Stmt) (b b' vis : List String), (∀ y ∈ b', y ∈ b) →
    NamedAll b vis ss → NamedAll b' vis ss := by
  intro ss
  induction ss with
  | nil => intro b b' vis _ _; trivial
  | cons s ss ih =>
    intro b b' vis hb h
    simp only [NamedAll] at h ⊢
    refine ⟨named_mono s b b' vis hb h.1, ih _ _ _ ?_ h.2⟩
    intro y hy
    rcases List.mem_append.1 hy with h | h
    · exact List.mem_append_left _ h
    · exact List.mem_append_right _ (hb y h)

/-- Inference and the check of lengths on a whole body. -/
theorem body_total (params : List String) (ss : List Stmt) (tag : Bool)
    (hn : NamedAll params params ss) (ha : ApartAll ss) :
    ∃ body' E r E', infer (.block ss)
        (params.foldl (fun (E : Env Bool) p => Env.add E p tag) [[]]) = some (body', E) ∧
      verify body' E = some (r, E') := by
  have hn' : Named [] params (.block ss) := by
    simp only [Named]; exact namedAll_mono ss params [] params (by simp) hn
  have ha' : Apart (.block ss) := by simp only [Apart]; exact ha
  rw [foldl_add (fun _ => tag)]
  have hv : ∀ y ∈ params, y ∈ (Env.keys
      [((params.map fun p => (p, tag)).reverse ++ [] : List (String × Bool))]).flatten := by
    intro y hy; rw [keys_params]; simpa using hy
  obtain ⟨s', E, h1, k1, i1, n1, p1⟩ := infer_total (.block ss) [] params _ hn' ha' hv (by simp)
  rw [show intro (.block ss) = [] from rfl, addKeys_nil] at k1
  obtain ⟨r, E', h2, _⟩ := verify_total s' [] params E n1 p1 (by rw [k1]; exact hv)
    ((keys_ne _).1 (by rw [k1]; exact (keys_ne _).2 (by simp)))
  exact ⟨s', E, r, E', h1, h2⟩

end Verif.Expand
