import Verif.InstLemmas

set_option linter.unusedVariables false
set_option linter.unusedSimpArgs false

/-! What it means for code to be linked (the words of C88), and the proof that `linkEx` and `linkSt`
give such code and meet no missing instance. -/

namespace Verif.Inst

/-! ## The words of the claim -/

mutual
/-- The expression without marks and with the called names changed by `g`. -/
def Ex.plain (g : String → String) : Ex → Ex
  | .num _ v => .num none v
  | .var _ n idx => .var none n (plainAll g idx)
  | .port _ n f pre post => .port none n f (plainAll g pre) (plainAll g post)
  | .bin _ a b => .bin none (a.plain g) (b.plain g)
  | .un _ a => .un none (a.plain g)
  | .par _ a => .par none (a.plain g)
  | .switch _ c a b => .switch none (c.plain g) (a.plain g) (b.plain g)
  | .call _ f args => .call none (g f) (plainAll g args)
  | .arr _ vs => .arr none (plainAll g vs)
  | .uni _ v d => .uni none (v.plain g) (d.plain g)

/-- The same for a list. -/
def plainAll (g : String → String) : List Ex → List Ex
  | [] => []
  | e :: es => e.plain g :: plainAll g es
end

mutual
/-- The same for a statement. -/
def Stm.plain (g : String → String) : Stm → Stm
  | .ret e => .ret (e.plain g)
  | .block ss => .block (plainSts g ss)
  | .init ss => .init (plainSts g ss)
  | .ifThen c a => .ifThen (c.plain g) (a.plain g)
  | .ifElse c a b => .ifElse (c.plain g) (a.plain g) (b.plain g)
  | .loop c s => .loop (c.plain g) (s.plain g)
  | .decl n sizes ty => .decl n (plainAll g sizes) ty
  | .subst n acc e => .subst n (plainAll g acc) (e.plain g)
  | .ceq a b => .ceq (a.plain g) (b.plain g)
  | .log es => .log (plainAll g es)
  | .check e => .check (e.plain g)
  | .under => .under

/-- The same for a list of statements. -/
def plainSts (g : String → String) : List Stm → List Stm
  | [] => []
  | s :: ss => s.plain g :: plainSts g ss
end

mutual
/-- All the names called in an expression satisfy `P`. -/
def Ex.Calls (P : String → Prop) : Ex → Prop
  | .num _ _ => True
  | .var _ _ idx => CallsAll P idx
  | .port _ _ _ pre post => CallsAll P pre ∧ CallsAll P post
  | .bin _ a b => a.Calls P ∧ b.Calls P
  | .un _ a => a.Calls P
  | .par _ a => a.Calls P
  | .switch _ c a b => c.Calls P ∧ a.Calls P ∧ b.Calls P
  | .call _ f args => P f ∧ CallsAll P args
  | .arr _ vs => CallsAll P vs
  | .uni _ v d => v.Calls P ∧ d.Calls P

/-- The same for a list. -/
def CallsAll (P : String → Prop) : List Ex → Prop
  | [] => True
  | e :: es => e.Calls P ∧ CallsAll P es
end

mutual
/-- The same for a statement. -/
def Stm.Calls (P : String → Prop) : Stm → Prop
  | .ret e => e.Calls P
  | .block ss => CallsSts P ss
  | .init ss => CallsSts P ss
  | .ifThen c a => c.Calls P ∧ a.Calls P
  | .ifElse c a b => c.Calls P ∧ a.Calls P ∧ b.Calls P
  | .loop c s => c.Calls P ∧ s.Calls P
  | .decl _ sizes _ => CallsAll P sizes
  | .subst _ acc e => CallsAll P acc ∧ e.Calls P
  | .ceq a b => a.Calls P ∧ b.Calls P
  | .log es => CallsAll P es
  | .check e => e.Calls P
  | .under => True

/-- The same for a list of statements. -/
def CallsSts (P : String → Prop) : List Stm → Prop
  | [] => True
  | s :: ss => s.Calls P ∧ CallsSts P ss
end

/-- The function an instance comes from; other names stay. -/
def origin (I : List Vcf) (h : String) : String :=
  match I.find? fun v => v.header == h with
  | some v => v.name
  | none => h

/-- `t` is, dimension by dimension, the largest of `ts`. -/
structure Largest (t : Vct) (ts : List Vct) : Prop where
  upper : ∀ s ∈ ts, s.length ≤ t.length ∧ ∀ i, s.getD i 0 ≤ t.getD i 0
  least : ∀ i < t.length, ∃ s ∈ ts, s.getD i 0 = t.getD i 0

/-- `e` is linked to the instances `I` where the variables have the dimensions of `env`: every
expression, other than the conditions of `switch`, is marked with its dimensions; a call of a
function names an instance whose parameters have the dimensions of the arguments, and has the
dimensions this instance returns. -/
inductive Linked (fns : List Fn) (I : List Vcf) (env : Env) : Ex → Prop where
  | num (v) : Linked fns I env (.num (some []) v)
  | var {n t idx} : env.get n = some t → (∀ e ∈ idx, Linked fns I env e) →
      Linked fns I env (.var (some (t.drop idx.length)) n idx)
  | port {n f t pre post} : env.ports.lookup (n, f) = some t → (∀ e ∈ pre, Linked fns I env e) →
      (∀ e ∈ post, Linked fns I env e) → Linked fns I env (.port (some (t.drop post.length)) n f pre post)
  | bin {a b} : Linked fns I env a → Linked fns I env b → Linked fns I env (.bin (some []) a b)
  | un {a} : Linked fns I env a → Linked fns I env (.un (some []) a)
  | par {a} : Linked fns I env a → Linked fns I env (.par (some []) a)
  | switch {c a b t} : Linked fns I env a → Linked fns I env b → a.dims = some t →
      Linked fns I env (.switch (some t) c a b)
  | call {v args} : v ∈ I → (∀ e ∈ args, Linked fns I env e) →
      args.map Ex.dims = v.params.map (fun p => some p.2) → Linked fns I env (.call (some v.ret) v.header args)
  | create {f args} : (∀ g ∈ fns, g.name ≠ f) → (∀ e ∈ args, Linked fns I env e) →
      Linked fns I env (.call (some []) f args)
  | arr {vs t ts} : (∀ e ∈ vs, Linked fns I env e) → vs.map Ex.dims = ts.map some → Largest t ts →
      Linked fns I env (.arr (some (vs.length :: t)) vs)
  | uni {v m k t} : Linked fns I env v → v.dims = some t →
      Linked fns I env (.uni (some (k :: t)) v (.num m k))

mutual
/-- A statement is linked; the second environment is the one after it. -/
inductive LinkedSt (fns : List Fn) (I : List Vcf) : Env → Stm → Env → Prop where
  | ret {env e} : Linked fns I env e → LinkedSt fns I env (.ret e) env
  | block {env env' ss} : LinkedSts fns I env.push ss env' → LinkedSt fns I env (.block ss) env'.pop
  | init {env env' ss} : LinkedSts fns I env ss env' → LinkedSt fns I env (.init ss) env'
  | ifThen {env env' c a} : Linked fns I env c → LinkedSt fns I env a env' → LinkedSt fns I env (.ifThen c a) env'
  | ifElse {env e1 e2 c a b} : Linked fns I env c → LinkedSt fns I env a e1 → LinkedSt fns I e1 b e2 →
      LinkedSt fns I env (.ifElse c a b) e2
  | loop {env env' c a} : Linked fns I env c → LinkedSt fns I env a env' → LinkedSt fns I env (.loop c a) env'
  | decl {env n sizes ty} : (∀ e ∈ sizes, Linked fns I env e) → LinkedSt fns I env (.decl n sizes ty) (env.add n ty)
  | subst {env n acc e} : (∀ e ∈ acc, Linked fns I env e) → Linked fns I env e → LinkedSt fns I env (.subst n acc e) env
  | ceq {env a b} : Linked fns I env a → Linked fns I env b → LinkedSt fns I env (.ceq a b) env
  | log {env es} : (∀ e ∈ es, Linked fns I env e) → LinkedSt fns I env (.log es) env
  | check {env e} : Linked fns I env e → LinkedSt fns I env (.check e) env
  | under {env} : LinkedSt fns I env .under env

/-- The same for a list of statements. -/
inductive LinkedSts (fns : List Fn) (I : List Vcf) : Env → List Stm → Env → Prop where
  | nil {env} : LinkedSts fns I env [] env
  | cons {env e1 e2 s ss} : LinkedSt fns I env s e1 → LinkedSts fns I e1 ss e2 → LinkedSts fns I env (s :: ss) e2
end

/-! ## Marks -/

theorem cast_mark (st : St) (env : Env) (t : Vct) (e : Ex) : cast st env (e.mark t) = cast st env e := by
  cases e with
  | arr m vs => cases vs <;> simp [Ex.mark, cast]
  | _ => simp [Ex.mark, cast]

theorem stamp_ok {st env e e'} : stamp st env e = .ok e' ↔ ∃ t, cast st env e = .ok t ∧ e' = e.mark t := by
  simp only [stamp, bind_ok, pure_ok]
  constructor
  · rintro ⟨t, h, rfl⟩; exact ⟨t, h, rfl⟩
  · rintro ⟨t, h, rfl⟩; exact ⟨t, h, rfl⟩

theorem stamp_err {st env e x} : stamp st env e = .error x ↔ cast st env e = .error x := by
  simp only [stamp, bind_err, pure_err, and_false, exists_false, or_false]

theorem mark_dims (t : Vct) (e : Ex) : (e.mark t).dims = some t := by cases e <;> rfl

theorem stamp_cast {st env e e'} (h : stamp st env e = .ok e') : ∃ t, cast st env e' = .ok t ∧ e'.dims = some t := by
  obtain ⟨t, ht, rfl⟩ := stamp_ok.1 h
  exact ⟨t, by rw [cast_mark, ht], mark_dims t e⟩

/-- A linked expression has dimensions, and is marked with them. -/
theorem link_cast {st env} : ∀ {e e'}, linkEx st env e = .ok e' → ∃ t, cast st env e' = .ok t ∧ e'.dims = some t := by
  intro e e' h
  cases e with
  | num m v => exact stamp_cast (by simpa only [linkEx] using h)
  | call m f args =>
    simp only [linkEx, bind_ok] at h
    obtain ⟨as, -, h⟩ := h
    cases hf : st.fn f with
    | none => rw [hf] at h; exact stamp_cast h
    | some fn =>
      rw [hf] at h
      simp only [bind_ok] at h
      obtain ⟨ps, -, v, -, h⟩ := h
      exact stamp_cast h
  | var m n idx => simp only [linkEx, bind_ok] at h; obtain ⟨_, -, h⟩ := h; exact stamp_cast h
  | port m n f i j => simp only [linkEx, bind_ok] at h; obtain ⟨_, -, _, -, h⟩ := h; exact stamp_cast h
  | bin m a b => simp only [linkEx, bind_ok] at h; obtain ⟨_, -, _, -, h⟩ := h; exact stamp_cast h
  | un m a => simp only [linkEx, bind_ok] at h; obtain ⟨_, -, h⟩ := h; exact stamp_cast h
  | par m a => simp only [linkEx, bind_ok] at h; obtain ⟨_, -, h⟩ := h; exact stamp_cast h
  | switch m c a b => simp only [linkEx, bind_ok] at h; obtain ⟨_, -, _, -, h⟩ := h; exact stamp_cast h
  | arr m vs => simp only [linkEx, bind_ok] at h; obtain ⟨_, -, h⟩ := h; exact stamp_cast h
  | uni m a b => simp only [linkEx, bind_ok] at h; obtain ⟨_, -, _, -, h⟩ := h; exact stamp_cast h

theorem linkAll_cons {st env e es r} : linkAll st env (e :: es) = .ok r ↔
    ∃ e' es', linkEx st env e = .ok e' ∧ linkAll st env es = .ok es' ∧ r = e' :: es' := by
  simp only [linkAll, bind_ok, pure_ok]
  constructor
  · rintro ⟨a, h1, b, h2, rfl⟩; exact ⟨a, b, h1, h2, rfl⟩
  · rintro ⟨a, b, h1, h2, rfl⟩; exact ⟨a, h1, b, h2, rfl⟩

theorem linkAll_cast {st env} : ∀ {es es'}, linkAll st env es = .ok es' →
    ∃ ts, castAll st env es' = .ok ts ∧ es'.map Ex.dims = ts.map some ∧ es'.length = es.length
  | [], es', h => by
    simp only [linkAll, Except.ok.injEq] at h
    subst h
    exact ⟨[], rfl, rfl, rfl⟩
  | e :: es, r, h => by
    obtain ⟨e', es', h1, h2, rfl⟩ := linkAll_cons.1 h
    obtain ⟨t, ht, hd⟩ := link_cast h1
    obtain ⟨ts, hts, hds, hl⟩ := linkAll_cast h2
    exact ⟨t :: ts, by simp [castAll, ht, hts, bind, Except.bind, pure, Except.pure], by simp [hd, hds], by simp [hl]⟩

/-! ## The dimensions of an array -/

theorem raise_spec : ∀ {t s r : Vct}, raise t s = some r → r.length = t.length ∧ s.length ≤ r.length ∧
    (∀ i, t.getD i 0 ≤ r.getD i 0) ∧ (∀ i, s.getD i 0 ≤ r.getD i 0) ∧
    (∀ i, r.getD i 0 = t.getD i 0 ∨ r.getD i 0 = s.getD i 0)
  | t, [], r, h => by
    simp only [raise, Option.some.injEq] at h
    subst h
    exact ⟨rfl, by simp, fun _ => Nat.le_refl _, by simp, fun _ => .inl rfl⟩
  | [], b :: s, r, h => by simp [raise] at h
  | a :: t, b :: s, r, h => by
    simp only [raise, Option.map_eq_some_iff] at h
    obtain ⟨q, hq, rfl⟩ := h
    obtain ⟨h1, h2, h3, h4, h5⟩ := raise_spec hq
    refine ⟨by simp [h1], by simpa using h2, ?_, ?_, ?_⟩
    · rintro (_ | i)
      · simp only [List.getD_cons_zero]; omega
      · simpa using h3 i
    · rintro (_ | i)
      · simp only [List.getD_cons_zero]; omega
      · simpa using h4 i
    · rintro (_ | i)
      · simp only [List.getD_cons_zero]; omega
      · simpa using h5 i

theorem widen_spec {st env} : ∀ {es t r}, widen st env t es = .ok r →
    ∃ ts, castAll st env es = .ok ts ∧ r.length = t.length ∧ (∀ i, t.getD i 0 ≤ r.getD i 0) ∧
      (∀ s ∈ ts, s.length ≤ r.length ∧ ∀ i, s.getD i 0 ≤ r.getD i 0) ∧
      (∀ i, r.getD i 0 = t.getD i 0 ∨ ∃ s ∈ ts, s.getD i 0 = r.getD i 0)
  | [], t, r, h => by
    simp only [widen, Except.ok.injEq] at h
    subst h
    exact ⟨[], rfl, rfl, fun _ => Nat.le_refl _, by simp, fun _ => .inl rfl⟩
  | e :: es, t, r, h => by
    simp only [widen, bind_ok, need_ok] at h
    obtain ⟨s, hs, q, hq, h⟩ := h
    obtain ⟨a1, a2, a3, a4, a5⟩ := raise_spec hq
    obtain ⟨ts, b0, b1, b2, b3, b4⟩ := widen_spec h
    refine ⟨s :: ts, by simp [castAll, hs, b0, bind, Except.bind, pure, Except.pure], by omega,
      fun i => Nat.le_trans (a3 i) (b2 i), ?_, ?_⟩
    · intro x hx
      rcases List.mem_cons.1 hx with rfl | hx
      · exact ⟨by omega, fun i => Nat.le_trans (a4 i) (b2 i)⟩
      · exact b3 x hx
    · intro i
      rcases b4 i with h | ⟨x, hx, h⟩
      · rcases a5 i with h' | h'
        · left; omega
        · right; exact ⟨s, by simp, by omega⟩
      · right; exact ⟨x, by simp [hx], h⟩

theorem arr_cast {st env m vs t} (h : cast st env (.arr m vs) = .ok t) :
    ∃ ts u, castAll st env vs = .ok ts ∧ Largest u ts ∧ t = vs.length :: u := by
  cases vs with
  | nil => simp [cast] at h
  | cons v vs =>
    simp only [cast, bind_ok, pure_ok] at h
    obtain ⟨t1, h1, t2, h2, rfl⟩ := h
    obtain ⟨ts, b0, b1, b2, b3, b4⟩ := widen_spec h2
    refine ⟨t1 :: ts, t2, by simp [castAll, h1, b0, bind, Except.bind, pure, Except.pure], ⟨?_, ?_⟩, rfl⟩
    · intro x hx
      rcases List.mem_cons.1 hx with rfl | hx
      · exact ⟨by omega, b2⟩
      · exact b3 x hx
    · intro i hi
      rcases b4 i with h | ⟨x, hx, h⟩
      · exact ⟨t1, by simp, h.symm⟩
      · exact ⟨x, by simp [hx], h⟩

theorem castAll_fun {st env es ts us} (h : castAll st env es = .ok ts) (h' : castAll st env es = .ok us) : ts = us := by
  rw [h] at h'; exact Except.ok.inj h'

theorem named_snd : ∀ {ns ts ps}, named ns ts = some ps → ps.map Prod.snd = ts
  | _, [], ps, h => by
    simp only [named, Option.some.injEq] at h
    subst h; rfl
  | [], _ :: _, ps, h => by simp [named] at h
  | n :: ns, t :: ts, ps, h => by
    simp only [named, Option.map_eq_some_iff] at h
    obtain ⟨q, hq, rfl⟩ := h
    simp [named_snd hq]

/-! ## Linked code -/

theorem fn_none {st : St} {f : String} (h : st.fn f = none) : ∀ g ∈ st.fns, g.name ≠ f := fun g hg e => by
  have := List.find?_eq_none.1 h g hg
  simp [e] at this

theorem origin_clear {st : St} (hg : Good st) {f} (h : Clear st.fns f) : origin st.vcfs f = f := by
  simp [origin, header_none hg h]

theorem origin_header {st : St} (hg : Good st) {v} (h : v ∈ st.vcfs) : origin st.vcfs v.header = v.name := by
  simp [origin, quick_header hg h]

mutual
/-- Where the names are clear nothing is renamed. -/
theorem plain_clear {st : St} (hg : Good st) : ∀ {e : Ex}, e.Calls (Clear st.fns) →
    e.plain (origin st.vcfs) = e.plain id
  | .num _ _, h => rfl
  | .var _ _ idx, h => by simp only [Ex.plain, plainAll_clear hg (es := idx) h]
  | .port _ _ _ i j, h => by simp only [Ex.plain, plainAll_clear hg (es := i) h.1, plainAll_clear hg (es := j) h.2]
  | .bin _ a b, h => by simp only [Ex.plain, plain_clear hg (e := a) h.1, plain_clear hg (e := b) h.2]
  | .un _ a, h => by simp only [Ex.plain, plain_clear hg (e := a) h]
  | .par _ a, h => by simp only [Ex.plain, plain_clear hg (e := a) h]
  | .switch _ c a b, h => by
    simp only [Ex.plain, plain_clear hg (e := c) h.1, plain_clear hg (e := a) h.2.1, plain_clear hg (e := b) h.2.2]
  | .call _ f args, h => by
    simp only [Ex.plain, plainAll_clear hg (es := args) h.2, origin_clear hg h.1, id]
  | .arr _ vs, h => by simp only [Ex.plain, plainAll_clear hg (es := vs) h]
  | .uni _ a b, h => by simp only [Ex.plain, plain_clear hg (e := a) h.1, plain_clear hg (e := b) h.2]

theorem plainAll_clear {st : St} (hg : Good st) : ∀ {es : List Ex}, CallsAll (Clear st.fns) es →
    plainAll (origin st.vcfs) es = plainAll id es
  | [], h => rfl
  | e :: es, h => by simp only [plainAll, plain_clear hg (e := e) h.1, plainAll_clear hg (es := es) h.2]
end

theorem size_num {d : Ex} {k : Nat} (h : size d = some k) : ∃ m, d = .num m k := by
  cases d with
  | num m v =>
    simp only [size] at h
    split at h
    · exact ⟨m, by simpa using h⟩
    · simp at h
  | _ => simp [size] at h

mutual
theorem link_linked {st : St} (hg : Good st) {env : Env} : ∀ {e e' : Ex}, e.Calls (Clear st.fns) →
    linkEx st env e = .ok e' → Linked st.fns st.vcfs env e' ∧ e'.plain (origin st.vcfs) = e.plain id
  | .num m v, e', hc, h => by
    simp only [linkEx] at h
    obtain ⟨t, ht, rfl⟩ := stamp_ok.1 h
    simp only [cast, Except.ok.injEq] at ht
    subst ht
    exact ⟨.num v, rfl⟩
  | .var m n idx, e', hc, h => by
    simp only [linkEx, bind_ok] at h
    obtain ⟨idx', h1, h⟩ := h
    obtain ⟨t, ht, rfl⟩ := stamp_ok.1 h
    simp only [cast, bind_ok, need_ok, pure_ok] at ht
    obtain ⟨u, hu, rfl⟩ := ht
    obtain ⟨l, p⟩ := linkAll_linked hg (es := idx) hc h1
    exact ⟨.var hu l, by simp only [Ex.mark, Ex.plain, p]⟩
  | .port m n f i j, e', hc, h => by
    simp only [linkEx, bind_ok] at h
    obtain ⟨i', h1, j', h2, h⟩ := h
    obtain ⟨t, ht, rfl⟩ := stamp_ok.1 h
    simp only [cast, bind_ok, need_ok, pure_ok] at ht
    obtain ⟨u, hu, rfl⟩ := ht
    obtain ⟨l1, p1⟩ := linkAll_linked hg (es := i) hc.1 h1
    obtain ⟨l2, p2⟩ := linkAll_linked hg (es := j) hc.2 h2
    exact ⟨.port hu l1 l2, by simp only [Ex.mark, Ex.plain, p1, p2]⟩
  | .bin m a b, e', hc, h => by
    simp only [linkEx, bind_ok] at h
    obtain ⟨a', h1, b', h2, h⟩ := h
    obtain ⟨t, ht, rfl⟩ := stamp_ok.1 h
    simp only [cast, Except.ok.injEq] at ht
    subst ht
    obtain ⟨l1, p1⟩ := link_linked hg (e := a) hc.1 h1
    obtain ⟨l2, p2⟩ := link_linked hg (e := b) hc.2 h2
    exact ⟨.bin l1 l2, by simp only [Ex.mark, Ex.plain, p1, p2]⟩
  | .un m a, e', hc, h => by
    simp only [linkEx, bind_ok] at h
    obtain ⟨a', h1, h⟩ := h
    obtain ⟨t, ht, rfl⟩ := stamp_ok.1 h
    simp only [cast, Except.ok.injEq] at ht
    subst ht
    obtain ⟨l1, p1⟩ := link_linked hg (e := a) hc h1
    exact ⟨.un l1, by simp only [Ex.mark, Ex.plain, p1]⟩
  | .par m a, e', hc, h => by
    simp only [linkEx, bind_ok] at h
    obtain ⟨a', h1, h⟩ := h
    obtain ⟨t, ht, rfl⟩ := stamp_ok.1 h
    simp only [cast, Except.ok.injEq] at ht
    subst ht
    obtain ⟨l1, p1⟩ := link_linked hg (e := a) hc h1
    exact ⟨.par l1, by simp only [Ex.mark, Ex.plain, p1]⟩
  | .switch m c a b, e', hc, h => by
    simp only [linkEx, bind_ok] at h
    obtain ⟨a', h1, b', h2, h⟩ := h
    obtain ⟨t, ht, rfl⟩ := stamp_ok.1 h
    simp only [cast] at ht
    obtain ⟨l1, p1⟩ := link_linked hg (e := a) hc.2.1 h1
    obtain ⟨l2, p2⟩ := link_linked hg (e := b) hc.2.2 h2
    obtain ⟨u, hu, hd⟩ := link_cast h1
    rw [hu] at ht
    obtain rfl := Except.ok.inj ht
    exact ⟨.switch l1 l2 hd, by simp only [Ex.mark, Ex.plain, p1, p2, plain_clear hg (e := c) hc.1]⟩
  | .call m f args, e', hc, h => by
    simp only [linkEx, bind_ok] at h
    obtain ⟨as, h1, h⟩ := h
    obtain ⟨l, p⟩ := linkAll_linked hg (es := args) hc.2 h1
    cases hf : st.fn f with
    | none =>
      rw [hf] at h
      obtain ⟨t, ht, rfl⟩ := stamp_ok.1 h
      simp only [cast, quick_none hg hc.1, hf, Except.ok.injEq] at ht
      subst ht
      exact ⟨.create (fn_none hf) l, by simp only [Ex.mark, Ex.plain, p, origin_clear hg hc.1, id]⟩
    | some fn =>
      rw [hf] at h
      simp only [bind_ok, need_ok, toParams] at h
      obtain ⟨ps, ⟨ts, hts, hps⟩, v, hv, h⟩ := h
      obtain ⟨hm, hn, hp⟩ := find_spec hv
      obtain ⟨t, ht, rfl⟩ := stamp_ok.1 h
      simp only [cast, quick_eq hg hm, Except.ok.injEq] at ht
      subst ht
      obtain ⟨us, hus, hd, -⟩ := linkAll_cast h1
      obtain rfl := castAll_fun hts hus
      refine ⟨.call hm l ?_, by simp only [Ex.mark, Ex.plain, p, origin_header hg hm, hn, id]⟩
      rw [hd, hp, ← named_snd hps, List.map_map]
      rfl
  | .arr m vs, e', hc, h => by
    simp only [linkEx, bind_ok] at h
    obtain ⟨vs', h1, h⟩ := h
    obtain ⟨t, ht, rfl⟩ := stamp_ok.1 h
    obtain ⟨l, p⟩ := linkAll_linked hg (es := vs) hc h1
    obtain ⟨ts, u, hts, hl, rfl⟩ := arr_cast ht
    obtain ⟨us, hus, hd, -⟩ := linkAll_cast h1
    obtain rfl := castAll_fun hts hus
    exact ⟨.arr l hd hl, by simp only [Ex.mark, Ex.plain, p]⟩
  | .uni m a b, e', hc, h => by
    simp only [linkEx, bind_ok] at h
    obtain ⟨a', h1, b', h2, h⟩ := h
    obtain ⟨t, ht, rfl⟩ := stamp_ok.1 h
    simp only [cast, bind_ok, need_ok, pure_ok] at ht
    obtain ⟨k, hk, u, hu, rfl⟩ := ht
    obtain ⟨l1, p1⟩ := link_linked hg (e := a) hc.1 h1
    obtain ⟨l2, p2⟩ := link_linked hg (e := b) hc.2 h2
    obtain ⟨w, hw, hd⟩ := link_cast h1
    rw [hu] at hw
    obtain rfl := Except.ok.inj hw
    obtain ⟨m', rfl⟩ := size_num hk
    exact ⟨.uni l1 hd, by simp only [Ex.mark, Ex.plain, p1] at p2 ⊢; rw [p2]⟩

theorem linkAll_linked {st : St} (hg : Good st) {env : Env} : ∀ {es es' : List Ex}, CallsAll (Clear st.fns) es →
    linkAll st env es = .ok es' → (∀ e ∈ es', Linked st.fns st.vcfs env e) ∧ plainAll (origin st.vcfs) es' = plainAll id es
  | [], es', hc, h => by
    simp only [linkAll, Except.ok.injEq] at h
    subst h
    exact ⟨by simp, rfl⟩
  | e :: es, r, hc, h => by
    obtain ⟨e', es', h1, h2, rfl⟩ := linkAll_cons.1 h
    obtain ⟨l1, p1⟩ := link_linked hg (e := e) hc.1 h1
    obtain ⟨l2, p2⟩ := linkAll_linked hg (es := es) hc.2 h2
    refine ⟨fun x hx => ?_, by simp only [plainAll, p1, p2]⟩
    rcases List.mem_cons.1 hx with rfl | hx
    · exact l1
    · exact l2 x hx
end

mutual
theorem linkSt_linked {st : St} (hg : Good st) : ∀ {s s' : Stm} {env env' : Env}, s.Calls (Clear st.fns) →
    linkSt st env s = .ok (env', s') → LinkedSt st.fns st.vcfs env s' env' ∧ s'.plain (origin st.vcfs) = s.plain id
  | .ret e, s', env, env', hc, h => by
    simp only [linkSt, bind_ok, pure_ok, Prod.mk.injEq] at h
    obtain ⟨e', h1, rfl, rfl⟩ := h
    obtain ⟨l, p⟩ := link_linked hg hc h1
    exact ⟨.ret l, by simp only [Stm.plain, p]⟩
  | .block ss, s', env, env', hc, h => by
    simp only [linkSt, bind_ok, pure_ok, Prod.mk.injEq, Prod.exists] at h
    obtain ⟨e', ss', h1, rfl, rfl⟩ := h
    obtain ⟨l, p⟩ := linkSts_linked hg (ss := ss) hc h1
    exact ⟨.block l, by simp only [Stm.plain, p]⟩
  | .init ss, s', env, env', hc, h => by
    simp only [linkSt, bind_ok, pure_ok, Prod.mk.injEq, Prod.exists] at h
    obtain ⟨e', ss', h1, rfl, rfl⟩ := h
    obtain ⟨l, p⟩ := linkSts_linked hg (ss := ss) hc h1
    exact ⟨.init l, by simp only [Stm.plain, p]⟩
  | .ifThen c a, s', env, env', hc, h => by
    simp only [linkSt, bind_ok, pure_ok, Prod.mk.injEq, Prod.exists] at h
    obtain ⟨c', h1, e', a', h2, rfl, rfl⟩ := h
    obtain ⟨l1, p1⟩ := link_linked hg hc.1 h1
    obtain ⟨l2, p2⟩ := linkSt_linked hg (s := a) hc.2 h2
    exact ⟨.ifThen l1 l2, by simp only [Stm.plain, p1, p2]⟩
  | .ifElse c a b, s', env, env', hc, h => by
    simp only [linkSt, bind_ok, pure_ok, Prod.mk.injEq, Prod.exists] at h
    obtain ⟨c', h1, e1, a', h2, e2, b', h3, rfl, rfl⟩ := h
    obtain ⟨l1, p1⟩ := link_linked hg hc.1 h1
    obtain ⟨l2, p2⟩ := linkSt_linked hg (s := a) hc.2.1 h2
    obtain ⟨l3, p3⟩ := linkSt_linked hg (s := b) hc.2.2 h3
    exact ⟨.ifElse l1 l2 l3, by simp only [Stm.plain, p1, p2, p3]⟩
  | .loop c a, s', env, env', hc, h => by
    simp only [linkSt, bind_ok, pure_ok, Prod.mk.injEq, Prod.exists] at h
    obtain ⟨c', h1, e', a', h2, rfl, rfl⟩ := h
    obtain ⟨l1, p1⟩ := link_linked hg hc.1 h1
    obtain ⟨l2, p2⟩ := linkSt_linked hg (s := a) hc.2 h2
    exact ⟨.loop l1 l2, by simp only [Stm.plain, p1, p2]⟩
  | .decl n sizes ty, s', env, env', hc, h => by
    simp only [linkSt, bind_ok, pure_ok, Prod.mk.injEq] at h
    obtain ⟨e', h1, rfl, rfl⟩ := h
    obtain ⟨l, p⟩ := linkAll_linked hg hc h1
    exact ⟨.decl l, by simp only [Stm.plain, p]⟩
  | .subst n acc e, s', env, env', hc, h => by
    simp only [linkSt, bind_ok, pure_ok, Prod.mk.injEq] at h
    obtain ⟨e', h1, acc', h2, rfl, rfl⟩ := h
    obtain ⟨l1, p1⟩ := link_linked hg hc.2 h1
    obtain ⟨l2, p2⟩ := linkAll_linked hg hc.1 h2
    exact ⟨.subst l2 l1, by simp only [Stm.plain, p1, p2]⟩
  | .ceq a b, s', env, env', hc, h => by
    simp only [linkSt, bind_ok, pure_ok, Prod.mk.injEq] at h
    obtain ⟨a', h1, b', h2, rfl, rfl⟩ := h
    obtain ⟨l1, p1⟩ := link_linked hg hc.1 h1
    obtain ⟨l2, p2⟩ := link_linked hg hc.2 h2
    exact ⟨.ceq l1 l2, by simp only [Stm.plain, p1, p2]⟩
  | .log es, s', env, env', hc, h => by
    simp only [linkSt, bind_ok, pure_ok, Prod.mk.injEq] at h
    obtain ⟨e', h1, rfl, rfl⟩ := h
    obtain ⟨l, p⟩ := linkAll_linked hg hc h1
    exact ⟨.log l, by simp only [Stm.plain, p]⟩
  | .check e, s', env, env', hc, h => by
    simp only [linkSt, bind_ok, pure_ok, Prod.mk.injEq] at h
    obtain ⟨e', h1, rfl, rfl⟩ := h
    obtain ⟨l, p⟩ := link_linked hg hc h1
    exact ⟨.check l, by simp only [Stm.plain, p]⟩
  | .under, s', env, env', hc, h => by
    simp only [linkSt, Except.ok.injEq, Prod.mk.injEq] at h
    obtain ⟨rfl, rfl⟩ := h
    exact ⟨.under, rfl⟩

theorem linkSts_linked {st : St} (hg : Good st) : ∀ {ss ss' : List Stm} {env env' : Env}, CallsSts (Clear st.fns) ss →
    linkSts st env ss = .ok (env', ss') → LinkedSts st.fns st.vcfs env ss' env' ∧ plainSts (origin st.vcfs) ss' = plainSts id ss
  | [], ss', env, env', hc, h => by
    simp only [linkSts, Except.ok.injEq, Prod.mk.injEq] at h
    obtain ⟨rfl, rfl⟩ := h
    exact ⟨.nil, rfl⟩
  | s :: ss, r, env, env', hc, h => by
    simp only [linkSts, bind_ok, pure_ok, Prod.mk.injEq, Prod.exists] at h
    obtain ⟨e1, s', h1, e2, ss', h2, rfl, rfl⟩ := h
    obtain ⟨l1, p1⟩ := linkSt_linked hg (s := s) hc.1 h1
    obtain ⟨l2, p2⟩ := linkSts_linked hg (ss := ss) hc.2 h2
    exact ⟨.cons l1 l2, by simp only [plainSts, p1, p2]⟩
end

/-! ## No missing instance -/

/-- `y` gives the dimensions `x` gave, when `x` gave some. -/
theorem castAll_map {s st'' : St} {env : Env} {e e' : Ex} {es es' : List Ex} {ts : List Vct}
    (h : castAll s env (e :: es) = .ok ts)
    (h1 : ∀ t, cast s env e = .ok t → cast st'' env e' = .ok t)
    (h2 : ∀ ts, castAll s env es = .ok ts → castAll st'' env es' = .ok ts) :
    castAll st'' env (e' :: es') = .ok ts := by
  simp only [castAll, bind_ok, pure_ok] at h
  obtain ⟨t, ht, us, hus, rfl⟩ := h
  simp [castAll, h1 t ht, h2 us hus, bind, Except.bind, pure, Except.pure]

theorem widen_map {s st'' : St} {env : Env} : ∀ {es es' : List Ex} {t r : Vct}, widen s env t es = .ok r →
    (∀ ts, castAll s env es = .ok ts → castAll st'' env es' = .ok ts) → es'.length = es.length →
    widen st'' env t es' = .ok r
  | [], [], t, r, h, _, _ => by simpa [widen] using h
  | [], _ :: _, t, r, h, _, hl => by simp at hl
  | _ :: _, [], t, r, h, _, hl => by simp at hl
  | e :: es, e' :: es', t, r, h, hc, hl => by
    simp only [widen, bind_ok, need_ok] at h
    obtain ⟨u, hu, q, hq, h⟩ := h
    obtain ⟨ts, b0, -⟩ := widen_spec h
    have hall := hc (u :: ts) (by simp [castAll, hu, b0, bind, Except.bind, pure, Except.pure])
    simp only [castAll, bind_ok, pure_ok, List.cons.injEq] at hall
    obtain ⟨u', hu', ts', hts', rfl, rfl⟩ := hall
    simp only [widen, bind_ok, need_ok]
    refine ⟨u', hu', q, hq, widen_map h (fun ts hts => ?_) (by simpa using hl)⟩
    obtain rfl := castAll_fun b0 hts
    exact hts'

theorem widen_err {st env} : ∀ {es : List Ex} {t ts}, castAll st env es = .ok ts → widen st env t es ≠ .error .missing
  | [], t, ts, h => by simp [widen]
  | e :: es, t, ts, h => by
    simp only [castAll, bind_ok, pure_ok] at h
    obtain ⟨u, hu, us, hus, rfl⟩ := h
    simp only [widen, ne_eq, bind_err, hu, need_err, need_ok, not_or, not_exists, not_and]
    refine ⟨by simp, fun a ha => ⟨by simp, fun q hq => widen_err hus⟩⟩

theorem arr_err {st env m vs ts} (h : castAll st env vs = .ok ts) : cast st env (.arr m vs) ≠ .error .missing := by
  cases vs with
  | nil => simp [cast]
  | cons v vs =>
    simp only [castAll, bind_ok, pure_ok] at h
    obtain ⟨u, hu, us, hus, rfl⟩ := h
    simp only [cast, ne_eq, bind_err, hu, pure_err, not_or, not_exists, not_and]
    exact ⟨by simp, fun a ha => ⟨widen_err hus, fun _ _ => by simp⟩⟩

theorem arr_map {s st'' : St} {env : Env} {m vs vs' t} (h : cast s env (.arr m vs) = .ok t)
    (hc : ∀ ts, castAll s env vs = .ok ts → castAll st'' env vs' = .ok ts) (hl : vs'.length = vs.length) :
    cast st'' env (.arr m vs') = .ok t := by
  cases vs with
  | nil => simp [cast] at h
  | cons v vs =>
    cases vs' with
    | nil => simp at hl
    | cons v' vs' =>
      simp only [cast, bind_ok, pure_ok] at h
      obtain ⟨t1, h1, t2, h2, rfl⟩ := h
      obtain ⟨ts, b0, -⟩ := widen_spec h2
      have hall := hc (t1 :: ts) (by simp [castAll, h1, b0, bind, Except.bind, pure, Except.pure])
      simp only [castAll, bind_ok, pure_ok, List.cons.injEq] at hall
      obtain ⟨u', hu', ts', hts', rfl, rfl⟩ := hall
      have hl' : vs'.length = vs.length := by simpa using hl
      simp only [cast, bind_ok, pure_ok]
      refine ⟨u', hu', t2, widen_map h2 (fun ts hts => ?_) hl', by rw [hl']⟩
      obtain rfl := castAll_fun b0 hts
      exact hts'

mutual
/-- After the instances of `e` have been made, linking `e` finds all of them, and the linked
expression has the dimensions of `e`. -/
theorem link_found {st'' : St} (hg : Good st'') {env : Env} : ∀ (e : Ex) {st st' : St}, Good st →
    e.Calls (Clear st''.fns) → prodEx env st e = .ok st' → Ext st' st'' →
    linkEx st'' env e ≠ .error .missing ∧ ∀ e', linkEx st'' env e = .ok e' →
      ∀ s, Ext st' s → Ext s st'' → ∀ t, cast s env e = .ok t → cast st'' env e' = .ok t
  | .num m v, st, st', hs, hc, h, hx => by
    simp only [linkEx]
    refine ⟨by simp [stamp_err, cast], fun e' h' s _ _ t ht => ?_⟩
    obtain ⟨u, hu, rfl⟩ := stamp_ok.1 h'
    simpa [cast_mark, cast] using ht
  | .var m n idx, st, st', hs, hc, h, hx => by
    simp only [prodEx] at h
    obtain ⟨h1, h2⟩ := linkAll_found hg idx hs hc h hx
    simp only [linkEx]
    refine ⟨?_, fun e' h' s hs1 hs2 t ht => ?_⟩
    · simp only [ne_eq, bind_err, stamp_err, cast, need_err, pure_err, need_ok, h1, false_or, not_exists, not_and]
      intro a ha
      simp
    · simp only [bind_ok] at h'
      obtain ⟨idx', h3, h'⟩ := h'
      obtain ⟨u, hu, rfl⟩ := stamp_ok.1 h'
      obtain ⟨-, -, -, hl⟩ := linkAll_cast h3
      simpa only [cast_mark, cast, hl] using ht
  | .port m n f i j, st, st', hs, hc, h, hx => by
    simp only [prodEx, bind_ok] at h
    obtain ⟨s1, p1, p2⟩ := h
    have g1 := prodAll_good env i hs p1
    have g2 := prodAll_good env j g1.1 p2
    obtain ⟨h1, -⟩ := linkAll_found hg i hs hc.1 p1 (g2.2.trans hx)
    obtain ⟨h2, -⟩ := linkAll_found hg j g1.1 hc.2 p2 hx
    simp only [linkEx]
    refine ⟨?_, fun e' h' s hs1 hs2 t ht => ?_⟩
    · simp only [ne_eq, bind_err, stamp_err, cast, need_err, pure_err, need_ok, h1, h2, false_or, not_exists, not_and]
      intro a ha b hb
      simp
    · simp only [bind_ok] at h'
      obtain ⟨i', h3, j', h4, h'⟩ := h'
      obtain ⟨u, hu, rfl⟩ := stamp_ok.1 h'
      obtain ⟨-, -, -, hl⟩ := linkAll_cast h4
      simpa only [cast_mark, cast, hl] using ht
  | .bin m a b, st, st', hs, hc, h, hx => by
    simp only [prodEx, bind_ok] at h
    obtain ⟨s1, p1, p2⟩ := h
    have g1 := prodEx_good env a hs p1
    have g2 := prodEx_good env b g1.1 p2
    obtain ⟨h1, -⟩ := link_found hg a hs hc.1 p1 (g2.2.trans hx)
    obtain ⟨h2, -⟩ := link_found hg b g1.1 hc.2 p2 hx
    simp only [linkEx]
    refine ⟨?_, fun e' h' s hs1 hs2 t ht => ?_⟩
    · simp [bind_err, stamp_err, cast, h1, h2]
    · simp only [bind_ok] at h'
      obtain ⟨i', h3, j', h4, h'⟩ := h'
      obtain ⟨u, hu, rfl⟩ := stamp_ok.1 h'
      simpa only [cast_mark, cast] using ht
  | .un m a, st, st', hs, hc, h, hx => by
    simp only [prodEx] at h
    obtain ⟨h1, -⟩ := link_found hg a hs hc h hx
    simp only [linkEx]
    refine ⟨?_, fun e' h' s hs1 hs2 t ht => ?_⟩
    · simp [bind_err, stamp_err, cast, h1]
    · simp only [bind_ok] at h'
      obtain ⟨i', h3, h'⟩ := h'
      obtain ⟨u, hu, rfl⟩ := stamp_ok.1 h'
      simpa only [cast_mark, cast] using ht
  | .par m a, st, st', hs, hc, h, hx => by
    simp only [prodEx] at h
    obtain ⟨h1, -⟩ := link_found hg a hs hc h hx
    simp only [linkEx]
    refine ⟨?_, fun e' h' s hs1 hs2 t ht => ?_⟩
    · simp [bind_err, stamp_err, cast, h1]
    · simp only [bind_ok] at h'
      obtain ⟨i', h3, h'⟩ := h'
      obtain ⟨u, hu, rfl⟩ := stamp_ok.1 h'
      simpa only [cast_mark, cast] using ht
  | .switch m c a b, st, st', hs, hc, h, hx => by
    simp only [prodEx, bind_ok] at h
    obtain ⟨s1, p1, p2⟩ := h
    have g1 := prodEx_good env a hs p1
    have g2 := prodEx_good env b g1.1 p2
    obtain ⟨h1, k1⟩ := link_found hg a hs hc.2.1 p1 (g2.2.trans hx)
    obtain ⟨h2, -⟩ := link_found hg b g1.1 hc.2.2 p2 hx
    simp only [linkEx]
    refine ⟨?_, fun e' h' s hs1 hs2 t ht => ?_⟩
    · simp only [ne_eq, bind_err, stamp_err, cast, h1, h2, false_or, not_exists, not_and]
      intro a' ha b' hb
      obtain ⟨t, ht, -⟩ := link_cast ha
      simp [ht]
    · simp only [bind_ok] at h'
      obtain ⟨i', h3, j', h4, h'⟩ := h'
      obtain ⟨u, hu, rfl⟩ := stamp_ok.1 h'
      simp only [cast_mark, cast] at ht ⊢
      exact k1 i' h3 s (g2.2.trans hs1) hs2 t ht
  | .call m f args, st, st', hs, hc, h, hx => by
    simp only [prodEx, bind_ok] at h
    obtain ⟨s1, p1, p2⟩ := h
    have g1 := prodAll_good env args hs p1
    cases hf : st''.fn f with
    | none =>
      have hf1 : s1.fn f = none := by
        cases e : s1.fn f with
        | none => rfl
        | some fn =>
          rw [e] at p2
          simp only [bind_ok, toParams, need_ok] at p2
          obtain ⟨ps, ⟨ts, -, hp⟩, h3⟩ := p2
          obtain ⟨-, x2, -⟩ := addInstance_spec g1.1 e hp h3
          rw [← e, ← (x2.trans hx).fn, hf]
      rw [hf1] at p2
      obtain rfl : s1 = st' := by simpa using p2
      obtain ⟨h1, -⟩ := linkAll_found hg args hs hc.2 p1 hx
      simp only [linkEx, hf]
      refine ⟨?_, fun e' h' s hs1 hs2 t ht => ?_⟩
      · simp [bind_err, stamp_err, cast, h1, quick_none hg hc.1, hf]
      · simp only [bind_ok] at h'
        obtain ⟨i', h3, h'⟩ := h'
        obtain ⟨u, hu, rfl⟩ := stamp_ok.1 h'
        have hgs := Good.of_ext hs2 hg
        have hq : s.quick f = none := quick_none hgs (by rw [← hs2.1]; exact hc.1)
        simp only [cast, hq, ← hs2.fn f, hf, Except.ok.injEq] at ht
        subst ht
        simp [cast_mark, cast, quick_none hg hc.1, hf]
    | some fn =>
      have hx1 : Ext s1 st'' := by
        cases e : s1.fn f with
        | none =>
          rw [e] at p2
          obtain rfl : s1 = st' := by simpa using p2
          exact hx
        | some fn' =>
          rw [e] at p2
          simp only [bind_ok, toParams, need_ok] at p2
          obtain ⟨ps, ⟨ts, -, hp⟩, h3⟩ := p2
          exact (addInstance_spec g1.1 e hp h3).2.1.trans hx
      have hf1 : s1.fn f = some fn := by rw [← hx1.fn, hf]
      rw [hf1] at p2
      simp only [bind_ok, toParams, need_ok] at p2
      obtain ⟨ps, ⟨ts, hts, hp⟩, h3⟩ := p2
      obtain ⟨g2, x2, v, hv⟩ := addInstance_spec g1.1 hf1 hp h3
      obtain ⟨h1, k1⟩ := linkAll_found hg args hs hc.2 p1 hx1
      have hv'' := find_ext hx hv
      obtain ⟨hm, hn, hpp⟩ := find_spec hv''
      simp only [linkEx, hf]
      refine ⟨?_, fun e' h' s hs1 hs2 t ht => ?_⟩
      · simp only [ne_eq, bind_err, stamp_err, cast, need_err, pure_err, need_ok, h1, false_or, not_exists, not_and, toParams]
        intro as ha
        have := k1 as ha s1 (Ext.refl _) hx1 ts hts
        rintro ((h | ⟨a, -, -, h⟩) | ⟨qs, hq, h⟩)
        · simp [this] at h
        · simp at h
        · simp only [bind_ok, need_ok] at hq
          obtain ⟨us, hus, hq⟩ := hq
          obtain rfl := castAll_fun this hus
          rw [hp] at hq
          obtain rfl := Option.some.inj hq
          simp [hv'', quick_eq hg hm] at h
      · simp only [bind_ok, toParams, need_ok] at h'
        obtain ⟨as, h4, qs, ⟨us, hus, hqs⟩, w, hw, h'⟩ := h'
        obtain ⟨u, hu, rfl⟩ := stamp_ok.1 h'
        have hgs := Good.of_ext hs2 hg
        have hq : s.quick f = none := quick_none hgs (by rw [← hs2.1]; exact hc.1)
        simp only [cast, hq, ← hs2.fn f, hf, bind_ok, need_ok, pure_ok] at ht
        obtain ⟨ts', hts', ps', hps', v', hv', rfl⟩ := ht
        have := k1 as h4 s (x2.trans hs1) hs2 ts' hts'
        obtain rfl := castAll_fun hus this
        rw [hqs] at hps'
        obtain rfl := Option.some.inj hps'
        have hv2 := find_ext hs2 hv'
        rw [hw] at hv2
        obtain rfl := Option.some.inj hv2
        simp [cast_mark, cast, quick_eq hg (find_spec hw).1]
  | .arr m vs, st, st', hs, hc, h, hx => by
    simp only [prodEx] at h
    obtain ⟨h1, k1⟩ := linkAll_found hg vs hs hc h hx
    simp only [linkEx]
    refine ⟨?_, fun e' h' s hs1 hs2 t ht => ?_⟩
    · simp only [ne_eq, bind_err, stamp_err, h1, false_or, not_exists, not_and]
      intro vs' hv he
      obtain ⟨ts, hts, -⟩ := linkAll_cast hv
      exact arr_err hts he
    · simp only [bind_ok] at h'
      obtain ⟨vs', h3, h'⟩ := h'
      obtain ⟨u, hu, rfl⟩ := stamp_ok.1 h'
      obtain ⟨-, -, -, hl⟩ := linkAll_cast h3
      rw [cast_mark]
      exact arr_map ht (fun ts hts => k1 vs' h3 s hs1 hs2 ts hts) hl
  | .uni m a b, st, st', hs, hc, h, hx => by
    simp only [prodEx, bind_ok] at h
    obtain ⟨s1, p1, p2⟩ := h
    have g1 := prodEx_good env a hs p1
    have g2 := prodEx_good env b g1.1 p2
    obtain ⟨h1, k1⟩ := link_found hg a hs hc.1 p1 (g2.2.trans hx)
    obtain ⟨h2, -⟩ := link_found hg b g1.1 hc.2 p2 hx
    simp only [linkEx]
    refine ⟨?_, fun e' h' s hs1 hs2 t ht => ?_⟩
    · simp only [ne_eq, bind_err, stamp_err, cast, need_err, need_ok, pure_err, h1, h2, false_or, not_exists, not_and]
      intro a' ha b' hb
      obtain ⟨t, ht, -⟩ := link_cast ha
      simp [ht]
    · simp only [bind_ok] at h'
      obtain ⟨i', h3, j', h4, h'⟩ := h'
      obtain ⟨u, hu, rfl⟩ := stamp_ok.1 h'
      simp only [cast_mark, cast, bind_ok, need_ok, pure_ok] at ht ⊢
      obtain ⟨k, hk, w, hw, rfl⟩ := ht
      refine ⟨k, ?_, w, k1 i' h3 s (g2.2.trans hs1) hs2 w hw, rfl⟩
      obtain ⟨m', rfl⟩ := size_num hk
      simp only [linkEx] at h4
      obtain ⟨q, -, rfl⟩ := stamp_ok.1 h4
      exact hk

theorem linkAll_found {st'' : St} (hg : Good st'') {env : Env} : ∀ (es : List Ex) {st st' : St}, Good st →
    CallsAll (Clear st''.fns) es → prodAll env st es = .ok st' → Ext st' st'' →
    linkAll st'' env es ≠ .error .missing ∧ ∀ es', linkAll st'' env es = .ok es' →
      ∀ s, Ext st' s → Ext s st'' → ∀ ts, castAll s env es = .ok ts → castAll st'' env es' = .ok ts
  | [], st, st', hs, hc, h, hx => by
    refine ⟨by simp [linkAll], fun es' h' s _ _ ts ht => ?_⟩
    simp only [linkAll, Except.ok.injEq] at h'
    subst h'
    simpa [castAll] using ht
  | e :: es, st, st', hs, hc, h, hx => by
    simp only [prodAll, bind_ok] at h
    obtain ⟨s1, p1, p2⟩ := h
    have g1 := prodEx_good env e hs p1
    have g2 := prodAll_good env es g1.1 p2
    obtain ⟨h1, k1⟩ := link_found hg e hs hc.1 p1 (g2.2.trans hx)
    obtain ⟨h2, k2⟩ := linkAll_found hg es g1.1 hc.2 p2 hx
    refine ⟨by simp only [linkAll, ne_eq, bind_err, pure_err, h1, h2, and_false, exists_false, or_self, not_false_eq_true], fun r h' s hs1 hs2 ts ht => ?_⟩
    obtain ⟨e', es', h3, h4, rfl⟩ := linkAll_cons.1 h'
    exact castAll_map ht (k1 e' h3 s (g2.2.trans hs1) hs2) (k2 es' h4 s hs1 hs2)
end

mutual
theorem linkSt_found {st'' : St} (hg : Good st'') : ∀ (s : Stm) {st st' : St} {env env' : Env}, Good st →
    s.Calls (Clear st''.fns) → prodSt env st s = .ok (env', st') → Ext st' st'' →
    linkSt st'' env s ≠ .error .missing ∧ ∀ e2 s', linkSt st'' env s = .ok (e2, s') → e2 = env'
  | .ret e, st, st', env, env', hs, hc, h, hx => by
    simp only [prodSt, bind_ok, pure_ok, Prod.mk.injEq] at h
    obtain ⟨s, h1, rfl, rfl⟩ := h
    have k := (link_found hg e hs hc h1 hx).1
    simp only [linkSt, ne_eq, bind_err, pure_err, bind_ok, pure_ok, Prod.mk.injEq, and_false, exists_false, or_false]
    exact ⟨k, by rintro e2 s' ⟨_, -, rfl, -⟩; rfl⟩
  | .block ss, st, st', env, env', hs, hc, h, hx => by
    simp only [prodSt, bind_ok, pure_ok, Prod.mk.injEq, Prod.exists] at h
    obtain ⟨e, s, h1, rfl, rfl⟩ := h
    obtain ⟨k1, k2⟩ := linkSts_found hg ss hs hc h1 hx
    simp only [linkSt, ne_eq, bind_err, pure_err, bind_ok, pure_ok, Prod.exists, Prod.mk.injEq, and_false, exists_false, or_false]
    refine ⟨k1, ?_⟩
    rintro e2 s' ⟨e3, ss', h3, rfl, -⟩
    rw [k2 e3 ss' h3]
  | .init ss, st, st', env, env', hs, hc, h, hx => by
    simp only [prodSt] at h
    obtain ⟨k1, k2⟩ := linkSts_found hg ss hs hc h hx
    simp only [linkSt, ne_eq, bind_err, pure_err, bind_ok, pure_ok, Prod.exists, Prod.mk.injEq, and_false, exists_false, or_false]
    refine ⟨k1, ?_⟩
    rintro e2 s' ⟨e3, ss', h3, rfl, -⟩
    exact k2 e3 ss' h3
  | .ifThen c a, st, st', env, env', hs, hc, h, hx => by
    simp only [prodSt, bind_ok] at h
    obtain ⟨s1, h1, h2⟩ := h
    have g1 := prodEx_good env c hs h1
    have g2 := prodSt_good a g1.1 h2
    have k1 := (link_found hg c hs hc.1 h1 (g2.2.trans hx)).1
    obtain ⟨k2, k3⟩ := linkSt_found hg a g1.1 hc.2 h2 hx
    simp only [linkSt, ne_eq, bind_err, pure_err, bind_ok, pure_ok, Prod.exists, Prod.mk.injEq, and_false, exists_false, or_false, k1, k2, false_or, not_false_eq_true, true_and]
    rintro e2 s' ⟨_, -, e3, s3, h3, rfl, -⟩
    exact k3 e3 s3 h3
  | .ifElse c a b, st, st', env, env', hs, hc, h, hx => by
    simp only [prodSt, bind_ok, Prod.exists] at h
    obtain ⟨s1, h1, e2, s2, h2, h3⟩ := h
    have g1 := prodEx_good env c hs h1
    have g2 := prodSt_good a g1.1 h2
    have g3 := prodSt_good b g2.1 h3
    have k1 := (link_found hg c hs hc.1 h1 ((g2.2.trans g3.2).trans hx)).1
    obtain ⟨k2, k3⟩ := linkSt_found hg a g1.1 hc.2.1 h2 (g3.2.trans hx)
    obtain ⟨k4, k5⟩ := linkSt_found hg b g2.1 hc.2.2 h3 hx
    simp only [linkSt, ne_eq, bind_err, pure_err, bind_ok, pure_ok, Prod.exists, Prod.mk.injEq, and_false, exists_false, or_false, k1, k2, false_or, not_exists, not_and]
    refine ⟨?_, ?_⟩
    · intro c' hc' e3 s3 h3
      obtain rfl := k3 e3 s3 h3
      exact k4
    · rintro e5 s5 ⟨_, -, e3, s3, h3, e4, s4, h4, rfl, -⟩
      obtain rfl := k3 e3 s3 h3
      exact k5 e4 s4 h4
  | .loop c a, st, st', env, env', hs, hc, h, hx => by
    simp only [prodSt, bind_ok] at h
    obtain ⟨s1, h1, h2⟩ := h
    have g1 := prodEx_good env c hs h1
    have g2 := prodSt_good a g1.1 h2
    have k1 := (link_found hg c hs hc.1 h1 (g2.2.trans hx)).1
    obtain ⟨k2, k3⟩ := linkSt_found hg a g1.1 hc.2 h2 hx
    simp only [linkSt, ne_eq, bind_err, pure_err, bind_ok, pure_ok, Prod.exists, Prod.mk.injEq, and_false, exists_false, or_false, k1, k2, false_or, not_false_eq_true, true_and]
    rintro e2 s' ⟨_, -, e3, s3, h3, rfl, -⟩
    exact k3 e3 s3 h3
  | .decl n sizes ty, st, st', env, env', hs, hc, h, hx => by
    simp only [prodSt, bind_ok, pure_ok, Prod.mk.injEq] at h
    obtain ⟨s, h1, rfl, rfl⟩ := h
    have k := (linkAll_found hg sizes hs hc h1 hx).1
    simp only [linkSt, ne_eq, bind_err, pure_err, bind_ok, pure_ok, Prod.mk.injEq, and_false, exists_false, or_false]
    exact ⟨k, by rintro e2 s' ⟨_, -, rfl, -⟩; rfl⟩
  | .subst n acc e, st, st', env, env', hs, hc, h, hx => by
    simp only [prodSt, bind_ok, pure_ok, Prod.mk.injEq] at h
    obtain ⟨s1, h1, s2, h2, rfl, rfl⟩ := h
    have g1 := prodEx_good env e hs h1
    have g2 := prodAll_good env acc g1.1 h2
    have k1 := (link_found hg e hs hc.2 h1 (g2.2.trans hx)).1
    have k2 := (linkAll_found hg acc g1.1 hc.1 h2 hx).1
    simp only [linkSt, ne_eq, bind_err, pure_err, bind_ok, pure_ok, Prod.mk.injEq, and_false, exists_false, or_false, k1, k2, false_or, not_false_eq_true, true_and]
    rintro e2 s' ⟨_, -, _, -, rfl, -⟩
    rfl
  | .ceq a b, st, st', env, env', hs, hc, h, hx => by
    simp only [prodSt, bind_ok, pure_ok, Prod.mk.injEq] at h
    obtain ⟨s1, h1, s2, h2, rfl, rfl⟩ := h
    have g1 := prodEx_good env a hs h1
    have g2 := prodEx_good env b g1.1 h2
    have k1 := (link_found hg a hs hc.1 h1 (g2.2.trans hx)).1
    have k2 := (link_found hg b g1.1 hc.2 h2 hx).1
    simp only [linkSt, ne_eq, bind_err, pure_err, bind_ok, pure_ok, Prod.mk.injEq, and_false, exists_false, or_false, k1, k2, false_or, not_false_eq_true, true_and]
    rintro e2 s' ⟨_, -, _, -, rfl, -⟩
    rfl
  | .log es, st, st', env, env', hs, hc, h, hx => by
    simp only [prodSt, bind_ok, pure_ok, Prod.mk.injEq] at h
    obtain ⟨s, h1, rfl, rfl⟩ := h
    have k := (linkAll_found hg es hs hc h1 hx).1
    simp only [linkSt, ne_eq, bind_err, pure_err, bind_ok, pure_ok, Prod.mk.injEq, and_false, exists_false, or_false]
    exact ⟨k, by rintro e2 s' ⟨_, -, rfl, -⟩; rfl⟩
  | .check e, st, st', env, env', hs, hc, h, hx => by
    simp only [prodSt, bind_ok, pure_ok, Prod.mk.injEq] at h
    obtain ⟨s, h1, rfl, rfl⟩ := h
    have k := (link_found hg e hs hc h1 hx).1
    simp only [linkSt, ne_eq, bind_err, pure_err, bind_ok, pure_ok, Prod.mk.injEq, and_false, exists_false, or_false]
    exact ⟨k, by rintro e2 s' ⟨_, -, rfl, -⟩; rfl⟩
  | .under, st, st', env, env', hs, hc, h, hx => by
    simp only [prodSt, Except.ok.injEq, Prod.mk.injEq] at h
    obtain ⟨rfl, rfl⟩ := h
    simp only [linkSt, ne_eq, Except.ok.injEq, Prod.mk.injEq]
    exact ⟨by simp, by rintro e2 s' ⟨rfl, -⟩; rfl⟩

theorem linkSts_found {st'' : St} (hg : Good st'') : ∀ (ss : List Stm) {st st' : St} {env env' : Env}, Good st →
    CallsSts (Clear st''.fns) ss → prodSts env st ss = .ok (env', st') → Ext st' st'' →
    linkSts st'' env ss ≠ .error .missing ∧ ∀ e2 ss', linkSts st'' env ss = .ok (e2, ss') → e2 = env'
  | [], st, st', env, env', hs, hc, h, hx => by
    simp only [prodSts, Except.ok.injEq, Prod.mk.injEq] at h
    obtain ⟨rfl, rfl⟩ := h
    simp only [linkSts, ne_eq, Except.ok.injEq, Prod.mk.injEq]
    exact ⟨by simp, by rintro e2 s' ⟨rfl, -⟩; rfl⟩
  | s :: ss, st, st', env, env', hs, hc, h, hx => by
    simp only [prodSts, bind_ok, Prod.exists] at h
    obtain ⟨e1, s1, h1, h2⟩ := h
    have g1 := prodSt_good s hs h1
    have g2 := prodSts_good ss g1.1 h2
    obtain ⟨k2, k3⟩ := linkSt_found hg s hs hc.1 h1 (g2.2.trans hx)
    obtain ⟨k4, k5⟩ := linkSts_found hg ss g1.1 hc.2 h2 hx
    simp only [linkSts, ne_eq, bind_err, pure_err, bind_ok, pure_ok, Prod.exists, Prod.mk.injEq, and_false, exists_false, or_false, k2, false_or, not_exists, not_and]
    refine ⟨?_, ?_⟩
    · intro e3 s3 h3
      obtain rfl := k3 e3 s3 h3
      exact k4
    · rintro e5 s5 ⟨e3, s3, h3, e4, s4, h4, rfl, -⟩
      obtain rfl := k3 e3 s3 h3
      exact k5 e4 s4 h4
end

theorem linkTmpls_found {st : St} (hg : Good st) : ∀ {ts : List Tmpl}, (∀ t ∈ ts, t.code.Calls (Clear st.fns)) →
    (∀ t ∈ ts, ∃ s env' s', Good s ∧ prodSt (Env.start t.ports t.consts) s t.code = .ok (env', s') ∧ Ext s' st) →
    linkTmpls st ts ≠ .error .missing
  | [], _, _ => by simp [linkTmpls]
  | t :: ts, hc, hp => by
    obtain ⟨s, e, s', g, p, x⟩ := hp t (by simp)
    have k1 := (linkSt_found hg t.code g (hc t (by simp)) p x).1
    have k2 := linkTmpls_found hg (ts := ts) (fun u hu => hc u (by simp [hu])) (fun u hu => hp u (by simp [hu]))
    simp only [linkTmpls, ne_eq, bind_err, pure_err, k1, k2, and_false, exists_false, or_false, not_false_eq_true]

theorem linkVcfs_found {st : St} (hg : Good st) : ∀ {vs : List Vcf}, (∀ v ∈ vs, v.body.Calls (Clear st.fns)) →
    (∀ v ∈ vs, ∃ s env' s', Good s ∧ prodSt (Env.start [] v.params) s v.body = .ok (env', s') ∧ Ext s' st) →
    linkVcfs st vs ≠ .error .missing
  | [], _, _ => by simp [linkVcfs]
  | t :: ts, hc, hp => by
    obtain ⟨s, e, s', g, p, x⟩ := hp t (by simp)
    have k1 := (linkSt_found hg t.body g (hc t (by simp)) p x).1
    have k2 := linkVcfs_found hg (vs := ts) (fun u hu => hc u (by simp [hu])) (fun u hu => hp u (by simp [hu]))
    simp only [linkVcfs, ne_eq, bind_err, pure_err, k1, k2, and_false, exists_false, or_false, not_false_eq_true]

theorem linkTmpls_ok {st : St} : ∀ {ts ts' : List Tmpl}, linkTmpls st ts = .ok ts' →
    List.Forall₂ (fun t t' => ∃ env', linkSt st (Env.start t.ports t.consts) t.code = .ok (env', t'.code) ∧
      t'.consts = t.consts ∧ t'.ports = t.ports) ts ts'
  | [], ts', h => by
    simp only [linkTmpls, Except.ok.injEq] at h
    subst h; exact .nil
  | t :: ts, r, h => by
    simp only [linkTmpls, bind_ok, pure_ok, Prod.exists] at h
    obtain ⟨e, s, h1, ts', h2, rfl⟩ := h
    exact .cons ⟨e, h1, rfl, rfl⟩ (linkTmpls_ok h2)

theorem linkVcfs_ok {st : St} : ∀ {vs vs' : List Vcf}, linkVcfs st vs = .ok vs' →
    List.Forall₂ (fun v v' => ∃ env' s, linkSt st (Env.start [] v.params) v.body = .ok (env', s) ∧
      v' = { v with body := s }) vs vs'
  | [], ts', h => by
    simp only [linkVcfs, Except.ok.injEq] at h
    subst h; exact .nil
  | t :: ts, r, h => by
    simp only [linkVcfs, bind_ok, pure_ok, Prod.exists] at h
    obtain ⟨e, s, h1, ts', h2, rfl⟩ := h
    exact .cons ⟨e, s, h1, rfl⟩ (linkVcfs_ok h2)

end Verif.Inst
