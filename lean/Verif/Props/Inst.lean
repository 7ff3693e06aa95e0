import Verif.InstMake

set_option linter.unusedVariables false
set_option linter.unusedSimpArgs false

/-! # C88: every call of a function is linked to an instance made for the dimensions of its arguments

The compiler replaces every function by instances, one for each list of dimensions of arguments it is
called with, and makes every call name the instance for its arguments.  The words of the claim
(`Linked`, `LinkedSt`, `plain`, `origin`, `Returned`) are in `Verif.InstLink` and `Verif.InstRet`. -/

namespace Verif.Props.Inst

open Verif.Inst

/-- No name called in the program is also the header of an instance, `function_number`. -/
def ClearNames (fns : List Fn) (ts : List Tmpl) : Prop :=
  (∀ f ∈ fns, f.body.Calls (Clear fns)) ∧ ∀ t ∈ ts, t.code.Calls (Clear fns)

theorem clear_of {fns : List Fn} {n : String} (h : '_' ∉ n.toList) : Clear fns n := by
  intro g _ k e
  apply h
  rw [e, header]
  simp

/-! ## What the output looks like -/

theorem vcfs_twin {st : St} : ∀ {vs vs' : List Vcf}, linkVcfs st vs = .ok vs' → List.Forall₂ Twin vs vs' := by
  intro vs vs' h
  have h1 := linkVcfs_ok h
  clear h
  induction h1 with
  | nil => exact .nil
  | cons hw _ ih =>
    obtain ⟨_, _, _, rfl⟩ := hw
    exact .cons ⟨rfl, rfl, rfl, rfl⟩ ih

theorem twin_map {α : Type} (k : Vcf → α) (hk : ∀ v w, Twin v w → k w = k v) {I J : List Vcf}
    (h : List.Forall₂ Twin I J) : J.map k = I.map k := by
  induction h with
  | nil => rfl
  | cons h _ ih => simp [ih, hk _ _ h]

theorem merge_parts {n fns ts ts' vs} (h : merge n fns ts = .ok (ts', vs)) :
    ∃ st, produce n fns ts = .ok st ∧ Good st ∧ st.fns = fns ∧ linkTmpls st ts = .ok ts' ∧
      linkVcfs st st.vcfs = .ok vs := by
  simp only [merge, link, bind_ok, pure_ok, Prod.mk.injEq] at h
  obtain ⟨st, h1, a, h2, b, h3, rfl, rfl⟩ := h
  obtain ⟨g, e, -, -⟩ := produce_good h1
  exact ⟨st, h1, g, e, h2, h3⟩

theorem forall₂_left {α β : Type} {R : α → β → Prop} {l : List α} {m : List β} (h : List.Forall₂ R l m) {b}
    (hb : b ∈ m) : ∃ a ∈ l, R a b := by
  induction h with
  | nil => simp at hb
  | @cons x y l m h _ ih =>
    rcases List.mem_cons.1 hb with rfl | hb
    · exact ⟨x, by simp, h⟩
    · obtain ⟨a, ha, r⟩ := ih hb
      exact ⟨a, by simp [ha], r⟩

/-- **C88.**  When the instances are made and linked, every template keeps its code and every
instance has the code of its function, but that calls name instances; and in both every expression
is marked with its dimensions, and every call of a function names an instance of that function
whose parameters have the dimensions of the arguments, and is marked with what it returns. -/
theorem C88_linked {n fns ts ts' vs} (h : merge n fns ts = .ok (ts', vs)) (hc : ClearNames fns ts) :
    List.Forall₂ (fun t t' => t'.consts = t.consts ∧ t'.ports = t.ports ∧
      t'.code.plain (origin vs) = t.code.plain id ∧
      ∃ env', LinkedSt fns vs (Env.start t.ports t.consts) t'.code env') ts ts' ∧
    ∀ v ∈ vs, ∃ f ∈ fns, f.name = v.name ∧ v.body.plain (origin vs) = f.body.plain id ∧
      v.params.map Prod.fst = f.params.take v.params.length ∧
      ∃ env', LinkedSt fns vs (Env.start [] v.params) v.body env' := by
  obtain ⟨st, hp, g, rfl, h2, h3⟩ := merge_parts h
  have tw := vcfs_twin h3
  have ho : origin vs = origin st.vcfs := funext fun x => origin_twin tw x
  rw [ho]
  refine ⟨?_, fun v hv => ?_⟩
  · have h4 := linkTmpls_ok h2
    have hcl := hc.2
    clear h2 hc h hp
    induction h4 with
    | nil => exact .nil
    | @cons t t' l m ht _ ih =>
      obtain ⟨env', h5, h6, h7⟩ := ht
      obtain ⟨l1, p1⟩ := linkSt_linked g (hcl t (by simp)) h5
      exact .cons ⟨h6, h7, p1, env', linkedSt_twin tw l1⟩ (ih fun u hu => hcl u (by simp [hu]))
  · obtain ⟨w, hw, env', s, h5, rfl⟩ := forall₂_left (linkVcfs_ok h3) hv
    obtain ⟨fn, us, k1, k2, k3, -⟩ := g.known w hw
    obtain ⟨l1, p1⟩ := linkSt_linked g (body_calls g hc.1 hw) h5
    refine ⟨fn, (fn_name k1).1, (fn_name k1).2, by rw [p1, k2], ?_, env', linkedSt_twin tw l1⟩
    clear h5 l1 p1 k1 k2 hv
    exact named_fst k3
where
  named_fst : ∀ {ns : List String} {us ps}, named ns us = some ps → ps.map Prod.fst = ns.take ps.length
    | _, [], ps, h => by
      simp only [named, Option.some.injEq] at h
      subst h; simp
    | [], _ :: _, ps, h => by simp [named] at h
    | n :: ns, t :: us, ps, h => by
      simp only [named, Option.map_eq_some_iff] at h
      obtain ⟨q, hq, rfl⟩ := h
      simp [named_fst hq]

/-- **C88.**  No two instances have the same header, and no function has two instances for the same
dimensions; the header of an instance is the name of its function and its place in the list. -/
theorem C88_distinct {n fns ts ts' vs} (h : merge n fns ts = .ok (ts', vs)) :
    (vs.map Vcf.header).Nodup ∧ (vs.Pairwise fun v w => v.name = w.name → v.params.map Prod.snd ≠ w.params.map Prod.snd) ∧
    ∀ (i : Nat) (v : Vcf), vs[i]? = some v → v.header = v.name ++ "_" ++ toString i := by
  obtain ⟨st, hp, g, rfl, h2, h3⟩ := merge_parts h
  have tw := vcfs_twin h3
  have hheads : vs.map Vcf.header = st.vcfs.map Vcf.header :=
    twin_map _ (fun v w t => t.2.1) tw
  have hnames : vs.map (fun v => (v.name, v.params)) = st.vcfs.map (fun v => (v.name, v.params)) :=
    twin_map _ (fun v w t => by rw [t.1, t.2.2.1]) tw
  have hall : vs.map (fun v => (v.name, v.header)) = st.vcfs.map (fun v => (v.name, v.header)) :=
    twin_map _ (fun v w t => by rw [t.1, t.2.1]) tw
  have hidx : ∀ (i : Nat) (v : Vcf), vs[i]? = some v → v.header = v.name ++ "_" ++ toString i := by
    intro i v hv
    have h1 : (vs.map (fun v => (v.name, v.header)))[i]? = some (v.name, v.header) := by simp [hv]
    rw [hall] at h1
    simp only [List.getElem?_map, Option.map_eq_some_iff, Prod.mk.injEq] at h1
    obtain ⟨w, hw, e1, e2⟩ := h1
    rw [← e1, ← e2, g.heads i w hw, header]
  refine ⟨?_, ?_, hidx⟩
  · rw [hheads, List.Nodup, List.pairwise_map, List.pairwise_iff_getElem]
    intro i j hi hj hij e
    rw [g.heads i _ (List.getElem?_eq_getElem hi), g.heads j _ (List.getElem?_eq_getElem hj)] at e
    have := header_inj e
    omega
  · have h1 : (vs.map (fun v => (v.name, v.params))).Pairwise (fun a b => ¬ (a.1 = b.1 ∧ a.2 = b.2)) := by
      rw [hnames, List.pairwise_map]
      exact g.apart
    rw [List.pairwise_map] at h1
    have hk : ∀ v ∈ vs, ∃ fn us, st.fn v.name = some fn ∧ named fn.params us = some v.params := by
      intro v hv
      obtain ⟨w, hw, _, _, -, rfl⟩ := forall₂_left (linkVcfs_ok h3) hv
      obtain ⟨fn, us, k1, -, k3, -⟩ := g.known w hw
      exact ⟨fn, us, k1, k3⟩
    refine (List.Pairwise.and_mem.1 h1).imp ?_
    rintro v w ⟨hv, hw, hne⟩ hn hs
    apply hne
    refine ⟨hn, ?_⟩
    obtain ⟨fn, us, k1, k2⟩ := hk v hv
    obtain ⟨fn', us', k1', k2'⟩ := hk w hw
    rw [hn, k1'] at k1
    obtain rfl := Option.some.inj k1
    rw [named_snd k2, named_snd k2'] at hs
    subst hs
    rw [k2] at k2'
    exact Option.some.inj k2'

/-- **C88.**  The instance for the arguments of a call is always found. -/
theorem C88_found {n fns ts} (hc : ClearNames fns ts) : merge n fns ts ≠ .error .missing :=
  merge_found hc.1 hc.2

/-- **C88.**  The search for the dimensions a function returns ends: no function is entered inside
itself. -/
theorem C88_ends (fns : List Fn) (fn : Fn) (ps : List (String × Vct)) : inferResult fns fn ps ≠ .error .fuel :=
  fun h => absurd (inferResult_ends fns fn ps _ h) (by decide)

/-! ## The dimensions returned -/

theorem direct_result {n fns ts ts' vs v f} (h : merge n fns ts = .ok (ts', vs)) (hv : v ∈ vs)
    (hf : fns.find? (fun g => g.name == v.name) = some f) (hd : f.body.Direct) :
    (∃ e, Returned v.body e ∧ e.dims = some v.ret) ∧
    ∀ e, Returned v.body e → ∃ t, e.dims = some t ∧ lexLe t v.ret = true := by
  obtain ⟨st, hp, g, rfl, h2, h3⟩ := merge_parts h
  obtain ⟨w, hw, env', s, h5, rfl⟩ := forall₂_left (linkVcfs_ok h3) hv
  obtain ⟨fn, us, k1, k2, k3, k4⟩ := g.known w hw
  have e : fn = f := by
    have : st.fn w.name = some f := hf
    rw [k1] at this
    exact Option.some.inj this
  subst e
  rw [k2] at h5
  simp only [inferResult, bind_ok, need_ok, Prod.exists] at k4
  obtain ⟨r, c', k4, rfl⟩ := k4
  constructor
  · exact inferSt_attained (s := fn.body) (c := ⟨Env.start [] w.params, [fn.name]⟩) hd h5 k4 rfl
  · intro e he
    obtain ⟨t, ht, q, hq, hl⟩ := (inferSt_direct (s := fn.body) (c := ⟨Env.start [] w.params, [fn.name]⟩) hd h5 k4).2 e he
    obtain rfl := Option.some.inj hq
    exact ⟨t, ht, hl⟩

/-- **C88, in part.**  In a function whose returned values are not calls (nor begin with one), where
all returned values are scalars or arrays of one dimension, every returned value fits the
dimensions given to the result, and these are the dimensions of one of them.  For arrays of more
dimensions, and for returned calls, see the counterexamples. -/
theorem C88_returns_partial {n fns ts ts' vs v f} (h : merge n fns ts = .ok (ts', vs)) (hv : v ∈ vs)
    (hf : fns.find? (fun g => g.name == v.name) = some f) (hd : f.body.Direct)
    (h1 : ∀ e t, Returned v.body e → e.dims = some t → t.length ≤ 1) :
    (∃ e, Returned v.body e ∧ e.dims = some v.ret) ∧
    ∀ e, Returned v.body e → ∃ t, e.dims = some t ∧ t.length ≤ v.ret.length ∧ ∀ i, t.getD i 0 ≤ v.ret.getD i 0 := by
  obtain ⟨ha, hb⟩ := direct_result h hv hf hd
  refine ⟨ha, fun e he => ?_⟩
  obtain ⟨t, ht, hl⟩ := hb e he
  obtain ⟨e', he', hr⟩ := ha
  have l1 := h1 e t he ht
  have l2 := h1 e' _ he' hr
  refine ⟨t, ht, ?_⟩
  generalize v.ret = q at *
  match t, q with
  | [], q => exact ⟨by simp, fun i => by simp⟩
  | [a], [] => simp [lexLe] at hl
  | [a], [b] =>
    simp only [lexLe, Bool.and_true, Bool.or_eq_true, decide_eq_true_eq, beq_iff_eq] at hl
    refine ⟨by simp, fun i => ?_⟩
    cases i with
    | zero => simp only [List.getD_cons_zero]; omega
    | succ i => simp
  | _ :: _ :: _, _ => simp at l1
  | _, _ :: _ :: _ => simp at l2

/-- **C88, in part.**  In such a function, when all returned values have the same dimensions, of any
number, these are the dimensions given to the result. -/
theorem C88_same_partial {n fns ts ts' vs v f t} (h : merge n fns ts = .ok (ts', vs)) (hv : v ∈ vs)
    (hf : fns.find? (fun g => g.name == v.name) = some f) (hd : f.body.Direct)
    (h1 : ∀ e, Returned v.body e → e.dims = some t) : v.ret = t := by
  obtain ⟨⟨e, he, hr⟩, -⟩ := direct_result h hv hf hd
  rw [h1 e he] at hr
  exact (Option.some.inj hr).symm

/-! ## A concrete program -/

/-- `function last(a, n) { return a[n]; }` -/
def last : Fn := ⟨"last", ["a", "n"], .block [.ret (.var none "a" [.var none "n" []])]⟩

/-- `function pick(c) { var u[2]; var w[3]; if (c) { return u; } else { return w; } }` -/
def pick : Fn := ⟨"pick", ["c"], .block [.decl "u" [.num none 2] [2], .decl "w" [.num none 3] [3],
  .ifElse (.var none "c" []) (.ret (.var none "u" [])) (.ret (.var none "w" []))]⟩

/-- `var x[4]; var y; var z[2][4]; y = last(pick(0), 2) + last(x, k); z = [pick(y), c.out];`. -/
def tmpl : Tmpl := ⟨[("k", [])], [(("c", "out"), [4])], .block [
  .decl "x" [.num none 4] [4], .decl "y" [] [], .decl "z" [] [2, 4],
  .subst "y" [] (.bin none (.call none "last" [.call none "pick" [.num none 0], .num none 2])
    (.call none "last" [.var none "x" [], .var none "k" []])),
  .subst "z" [] (.arr none [.call none "pick" [.var none "y" []], .port none "c" "out" [] []])]⟩

theorem tmpl_clear : ClearNames [last, pick] [tmpl] := by
  simp only [ClearNames, List.mem_cons, List.not_mem_nil, or_false, forall_eq_or_imp, forall_eq]
  simp only [last, pick, tmpl, Stm.Calls, CallsSts, Ex.Calls, CallsAll, true_and, and_true]
  refine ⟨⟨⟨clear_of ?_, clear_of ?_⟩, clear_of ?_⟩, clear_of ?_⟩ <;> simp

/-- The headers, the parameters and the results of the instances. -/
def shapes (r : Except Fault (List Tmpl × List Vcf)) : Option (List (String × List (String × Vct) × Vct)) :=
  match r with
  | .ok (_, vs) => some (vs.map fun v => (v.header, v.params, v.ret))
  | .error _ => none

/-- The case for `C88_linked`, `C88_distinct` and `C88_found`: three instances, two of them of
`last`. -/
example : shapes (merge 10 [last, pick] [tmpl]) = some [("pick_0", [("c", [])], [3]),
    ("last_1", [("a", [3]), ("n", [])], []), ("last_2", [("a", [4]), ("n", [])], [])] := by rfl

example : ∃ ts' vs, merge 10 [last, pick] [tmpl] = .ok (ts', vs) ∧ ClearNames [last, pick] [tmpl] :=
  ⟨_, _, rfl, tmpl_clear⟩

/-- The case for `C88_ends`: two functions that call each other. -/
example : inferResult [⟨"f", ["x"], .ifElse (.var none "x" []) (.ret (.num none 1)) (.ret (.call none "g" [.num none 0]))⟩,
    ⟨"g", ["x"], .ret (.call none "f" [.var none "x" []])⟩]
    ⟨"g", ["x"], .ret (.call none "f" [.var none "x" []])⟩ [("x", [])] = .ok [] := by rfl

/-- The case for `C88_returns_partial`: the instance of `pick` returns arrays of 2 and of 3. -/
example : pick.body.Direct ∧ ∃ ts' vs v, merge 10 [last, pick] [tmpl] = .ok (ts', vs) ∧ v ∈ vs ∧
    v.name = "pick" ∧ v.ret = [3] ∧ Returned v.body (.var (some [2]) "u" []) ∧
    ∀ e t, Returned v.body e → e.dims = some t → t.length ≤ 1 := by
  refine ⟨by simp [pick, Stm.Direct, DirectSts, Ex.Direct], _, _, _, rfl, List.mem_cons_self .., rfl, rfl, ?_, ?_⟩
  · exact .block (.tail _ (.tail _ (.head _))) (.yes .ret)
  · intro e t he ht
    cases he with
    | block hm hr =>
      rcases hm with _ | ⟨_, _ | ⟨_, _ | ⟨_, hm⟩⟩⟩
      · cases hr
      · cases hr
      · cases hr with
        | yes hr => cases hr; cases ht; simp
        | no hr => cases hr; cases ht; simp
      · cases hm

/-- The case for `C88_same_partial`: `function sq() { var m[2][3]; return m; }`. -/
example : ∃ ts' vs v, merge 10 [⟨"sq", [], .block [.decl "m" [.num none 2, .num none 3] [2, 3], .ret (.var none "m" [])]⟩]
    [⟨[], [], .subst "y" [] (.call none "sq" [])⟩] = .ok (ts', vs) ∧ v ∈ vs ∧ v.ret = [2, 3] ∧
    ∀ e, Returned v.body e → e.dims = some [2, 3] := by
  refine ⟨_, _, _, rfl, List.mem_cons_self .., rfl, ?_⟩
  intro e he
  cases he with
  | block hm hr =>
    rcases hm with _ | ⟨_, _ | ⟨_, hm⟩⟩
    · cases hr
    · cases hr; rfl
    · cases hm

/-! ## Where the code does not do this -/

/-- `function f(x) { return x; }` -/
def ident : Fn := ⟨"f", ["x"], .ret (.var none "x" [])⟩

/-- **C88 does not hold of conditions of `?:`.**  In `y = f(1) ? 2 : 3` the call stays as it is, no
instance of `f` is made, and the condition has no dimensions. -/
theorem C88_switch_violated : ClearNames [ident]
      [⟨[], [], .subst "y" [] (.switch none (.call none "f" [.num none 1]) (.num none 2) (.num none 3))⟩] ∧
    merge 10 [ident] [⟨[], [], .subst "y" [] (.switch none (.call none "f" [.num none 1]) (.num none 2) (.num none 3))⟩] =
      .ok ([⟨[], [], .subst "y" [] (.switch (some []) (.call none "f" [.num none 1]) (.num (some []) 2) (.num (some []) 3))⟩],
        []) := by
  refine ⟨?_, rfl⟩
  simp only [ClearNames, List.mem_cons, List.not_mem_nil, or_false, forall_eq_or_imp, forall_eq]
  simp only [ident, Stm.Calls, CallsSts, Ex.Calls, CallsAll, true_and, and_true]
  exact clear_of (by simp)

/-- **C88 does not hold of a call in an argument of a call of the same function.**  With
`function g(x) { return f(f(x)); }` the dimensions returned by `g` are not found, because `f` counts
as entered while its argument is looked at: the compiler panics, whatever the bound. -/
theorem C88_nested_violated (n : Nat) :
    merge n [ident, ⟨"g", ["x"], .ret (.call none "f" [.call none "f" [.var none "x" []]])⟩]
      [⟨[], [], .subst "y" [] (.call none "g" [.num none 3])⟩] = .error .noResult := rfl

/-- **C88 does not hold of results of two dimensions.**  `function h(c) { var a[2][10]; var b[3][1];
if (c) { return a; } else { return b; } }` is given the result `[3, 1]`, three values, and returns
one of twenty. -/
theorem C88_larger_violated : ∃ ts' vs v, merge 10
      [⟨"h", ["c"], .block [.decl "a" [.num none 2, .num none 10] [2, 10], .decl "b" [.num none 3, .num none 1] [3, 1],
        .ifElse (.var none "c" []) (.ret (.var none "a" [])) (.ret (.var none "b" []))]⟩]
      [⟨[], [], .subst "y" [] (.call none "h" [.num none 1])⟩] = .ok (ts', vs) ∧ v ∈ vs ∧
    v.ret = [3, 1] ∧ ∃ e, Returned v.body e ∧ e.dims = some [2, 10] := by
  refine ⟨_, _, _, rfl, List.mem_cons_self .., rfl, .var (some [2, 10]) "a" [], ?_, rfl⟩
  exact .block (.tail _ (.tail _ (.head _))) (.yes .ret)

/-- **C88 does not hold of a function that calls itself.**  `function r(a, n) { var b[3]; if (n) {
return a; } else { return r(b, 1); } }`, called with an array of two, is given the result `[2]`, and
returns, through its instance for an array of three, an array of three. -/
theorem C88_recursive_violated : ∃ ts' vs v w, merge 10
      [⟨"r", ["a", "n"], .block [.decl "b" [.num none 3] [3],
        .ifElse (.var none "n" []) (.ret (.var none "a" [])) (.ret (.call none "r" [.var none "b" [], .num none 1]))]⟩]
      [⟨[], [], .block [.decl "x" [.num none 2] [2], .subst "y" [] (.call none "r" [.var none "x" [], .num none 0])]⟩] =
        .ok (ts', vs) ∧ vs = [v, w] ∧ v.ret = [2] ∧ w.ret = [3] ∧
    ∃ e, Returned v.body (.call (some [3]) w.header e) := by
  refine ⟨_, _, _, _, rfl, rfl, rfl, rfl, ?_⟩
  exact ⟨_, .block (.tail _ (.head _)) (.no .ret)⟩

/-- **`ClearNames` is needed.**  With functions named `f` and `f_0`, in `f(1); y = g(f_0(1))` the
instance of `f` takes the name `f_0`, so the result of `f_0` is thought to have the dimensions of
that of `f`: the instance of `g` is made for a scalar, and none is found when linking. -/
theorem C88_clash_violated : merge 10
      [ident, ⟨"f_0", ["x"], .block [.decl "a" [.num none 3] [3], .ret (.var none "a" [])]⟩,
        ⟨"g", ["x"], .ret (.num none 1)⟩]
      [⟨[], [], .block [.subst "y" [] (.call none "f" [.num none 1]),
        .subst "y" [] (.call none "g" [.call none "f_0" [.num none 1]])]⟩] = .error .missing := by rfl

end Verif.Props.Inst
