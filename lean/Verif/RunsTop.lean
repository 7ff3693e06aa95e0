import Verif.RunsLemmas

/-! The outermost list of instructions, and anonymous components. -/

set_option linter.unusedSimpArgs false
set_option linter.unusedVariables false

namespace Verif.Runs

theorem B_cons_last {c : Comp} {x : Ev} {t : List Ev} (hc : x.comp = c) (hi : x.info = ⟨.last, false⟩) (h : ¬ Has c t) :
    B c (x :: t) := Or.inl ⟨hc, hi, h⟩

/-- The environment says the same about `k` before and after. -/
theorem R_same {nm : Nat → Nat} {e e' : Env} {k : Nat} {x : Ev} {t : List Ev} (hent : e'.ent (.cmp k) = e.ent (.cmp k))
    (hunk : ∀ n, n ∈ e.unk → n ∈ e'.unk) (hx : x.comp ≠ .cmp k) (hr : R nm e k t) : R nm e' k (x :: t) := by
  rcases hk : e.ent (.cmp k) with _ | ⟨n, f⟩
  · rw [R_none hk] at hr
    rw [R_none (hent.trans hk)]
    refine ⟨fun y hy hc => ?_, fun h => hunk _ (hr.2 ?_)⟩
    · rcases List.mem_cons.1 hy with rfl | hy
      · exact absurd hc hx
      · exact hr.1 y hy hc
    · rcases Has.cons.1 h with h | h
      · exact absurd h hx
      · exact h
  · cases n
    · rw [R_false hk] at hr
      rw [R_false (hent.trans hk)]
      exact Or.inr ⟨fun hc => absurd hc hx, hr⟩
    · rw [R_true hk] at hr
      rw [R_true (hent.trans hk)]
      exact ⟨⟨fun hc => absurd hc hx, hr.1⟩, fun hf => Has.cons.2 (Or.inr (hr.2 hf))⟩

theorem visitTgt_top (nm : Nat → Nat) (e : Env) (tg : Tgt) (hwf : Wf e) :
    Wf (visitTgt false e [] tg).2.1 ∧ (visitTgt false e [] tg).2.1.bad = e.bad ∧ (visitTgt false e [] tg).2.2 = [] ∧
    ∀ (x : Ev) (t : List Ev), hits nm tg x.comp → x.info = (visitTgt false e [] tg).1 → (∀ k, R nm e k t) →
      ∀ k, R nm (visitTgt false e [] tg).2.1 k (x :: t) := by
  cases tg with
  | anon n =>
    have hne : ∀ (x : Ev), hits nm (.anon n) x.comp → ∀ k, x.comp ≠ .cmp k := by
      rintro x ⟨j, hj⟩ k; rw [hj]; simp
    simp only [visitTgt]
    rcases hn : e.ent (.anon n) with _ | i
    · refine ⟨⟨fun k => ?_, fun m i hi => ?_⟩, rfl, rfl, fun x t hh hi hr k => ?_⟩
      · simp [set_ent, hwf.1 k]
      · rw [set_ent] at hi
        split at hi
        · simp at hi; subst hi; rfl
        · exact hwf.2 _ _ hi
      · exact R_same (by simp [set_ent]) (fun _ h => h) (hne x hh k) (hr k)
    · refine ⟨hwf, by simp [hwf.2 n i hn], rfl, fun x t hh hi hr k => ?_⟩
      exact R_same rfl (fun _ h => h) (hne x hh k) (hr k)
  | unknown name =>
    simp only [visitTgt]
    refine ⟨hwf, trivial, trivial, ?_⟩
    rintro x t ⟨k0, hk0, hnm⟩ hi hr k
    by_cases hk : k = k0
    · subst hk
      have hr := hr k
      rcases he : e.ent (.cmp k) with _ | ⟨n, f⟩
      · rw [R_none he] at hr
        rw [R_none (e := { e with unk := name :: e.unk }) he]
        refine ⟨fun y hy hc => ?_, fun _ => by simp [hnm]⟩
        rcases List.mem_cons.1 hy with rfl | hy
        · exact hi
        · exact hr.1 y hy hc
      · cases n
        · rw [R_false he] at hr
          rw [R_false (e := { e with unk := name :: e.unk }) he]
          exact Or.inr ⟨fun _ => Or.inr hi, hr⟩
        · rw [R_true he] at hr
          rw [R_true (e := { e with unk := name :: e.unk }) he]
          exact ⟨⟨fun _ => Or.inl hi, hr.1⟩, fun hf => Has.cons.2 (Or.inl hk0)⟩
    · exact R_same (e := e) rfl (fun _ h => List.mem_cons_of_mem _ h) (by rw [hk0]; intro hc; cases hc; exact hk rfl) (hr k)
  | known name k0 =>
    -- an insertion at `k0`
    have hins : ∀ (i : LastInfo), i ≠ ⟨false, false⟩ → Wf (e.set (.cmp k0) i) := by
      intro i hi
      refine ⟨fun k => ?_, fun m j hj => ?_⟩
      · rw [set_ent]; split
        · intro hc; exact hi (Option.some.inj hc)
        · exact hwf.1 k
      · simp [set_ent] at hj; exact hwf.2 _ _ hj
    have hoth : ∀ (i : LastInfo) (x : Ev) (t : List Ev) (k : Nat), x.comp = .cmp k0 → k ≠ k0 → R nm e k t →
        R nm (e.set (.cmp k0) i) k (x :: t) := by
      intro i x t k hx hk hr
      exact R_same (e := e) (by simp [set_ent, hk]) (fun _ h => h) (by rw [hx]; intro hc; cases hc; exact hk rfl) hr
    have hoth' : ∀ (x : Ev) (t : List Ev) (k : Nat), x.comp = .cmp k0 → k ≠ k0 → R nm e k t → R nm e k (x :: t) := by
      intro x t k hx hk hr
      exact R_same rfl (fun _ h => h) (by rw [hx]; intro hc; cases hc; exact hk rfl) hr
    simp only [visitTgt, hits]
    rcases he : e.ent (.cmp k0) with _ | ⟨n, f⟩
    · by_cases hu : name ∈ e.unk
      · simp only [hu, if_true, Bool.false_eq_true, if_false]
        refine ⟨hins _ (by simp), rfl, trivial, ?_⟩
        rintro x t ⟨hx, hnm⟩ hi hr k
        by_cases hk : k = k0
        · subst hk
          have hr := hr k
          rw [R_none he] at hr
          rw [R_true (f := true) (by simp [set_ent])]
          exact ⟨⟨fun _ => Or.inl hi, A_of_unknown hr.1⟩, fun _ => Has.cons.2 (Or.inl hx)⟩
        · exact hoth _ x t k hx hk (hr k)
      · simp only [hu, if_true, Bool.false_eq_true, if_false]
        refine ⟨hins _ (by simp), rfl, trivial, ?_⟩
        rintro x t ⟨hx, hnm⟩ hi hr k
        by_cases hk : k = k0
        · subst hk
          have hr := hr k
          rw [R_none he] at hr
          rw [R_false (f := true) (by simp [set_ent])]
          exact B_cons_last hx hi (fun hh => hu (by rw [← hnm]; exact hr.2 hh))
        · exact hoth _ x t k hx hk (hr k)
    · cases f
      · have hnt : n = true := by
          cases n
          · exact absurd he (hwf.1 k0)
          · rfl
        subst hnt
        simp only [List.not_mem_nil, Bool.false_eq_true, if_false]
        refine ⟨hins _ (by simp), rfl, trivial, ?_⟩
        rintro x t ⟨hx, hnm⟩ hi hr k
        by_cases hk : k = k0
        · subst hk
          have hr := hr k
          rw [R_true he] at hr
          rw [R_true (f := true) (by simp [set_ent])]
          exact ⟨⟨fun _ => Or.inl hi, hr.1⟩, fun _ => Has.cons.2 (Or.inl hx)⟩
        · exact hoth _ x t k hx hk (hr k)
      · simp only [if_true]
        refine ⟨hwf, trivial, trivial, ?_⟩
        rintro x t ⟨hx, hnm⟩ hi hr k
        by_cases hk : k = k0
        · subst hk
          have hr := hr k
          cases n
          · rw [R_false he] at hr ⊢
            exact Or.inr ⟨fun _ => Or.inl (by rw [hi]), hr⟩
          · rw [R_true he] at hr ⊢
            exact ⟨⟨fun _ => Or.inr ⟨hi, Or.inl (hr.2 rfl)⟩, hr.1⟩, fun _ => Has.cons.2 (Or.inl hx)⟩
        · exact hoth' x t k hx hk (hr k)

theorem visitI_top (nm : Nat → Nat) (i : Ins) (e : Env) (hwf : Wf e) :
    Wf (visitI false e [] i).2.1 ∧ (visitI false e [] i).2.1.bad = e.bad ∧ (visitI false e [] i).2.2 = [] ∧
    ∀ a t, trI nm (visitI false e [] i).1 a → (∀ x ∈ a, 0 < x.amount) → (∀ k, R nm e k t) →
      ∀ k, R nm (visitI false e [] i).2.1 k (a ++ t) := by
  cases i with
  | store s tg size info =>
    by_cases hz : size = some 0
    · simp only [visitI, if_pos hz]
      refine ⟨hwf, trivial, trivial, ?_⟩
      rintro a t ⟨x, rfl, -, -, -, ham⟩ hp
      have := ham 0 hz
      have := hp x List.mem_cons_self
      omega
    · simp only [visitI, if_neg hz]
      obtain ⟨h1, h2, h3, h4⟩ := visitTgt_top nm e tg hwf
      refine ⟨h1, h2, h3, ?_⟩
      rintro a t ⟨x, rfl, hh, -, hi, -⟩ hp hr
      exact h4 x t hh hi hr
  | branch a b =>
    obtain ⟨h1, h2, hb, h3⟩ := visitI_loop nm (.branch a b) e [] hwf
    refine ⟨h1, hb, rfl, fun c t hc hp hr k => ?_⟩
    exact R_loop hwf h2 (h3 c hc hp) (hr k)
  | loop b =>
    obtain ⟨h1, h2, hb, h3⟩ := visitI_loop nm (.loop b) e [] hwf
    refine ⟨h1, hb, rfl, fun c t hc hp hr k => ?_⟩
    exact R_loop hwf h2 (h3 c hc hp) (hr k)
  | other =>
    simp only [visitI]
    refine ⟨hwf, trivial, trivial, ?_⟩
    intro a t ha _ hr k
    rw [trI] at ha; subst ha
    exact hr k

theorem visitL_top (nm : Nat → Nat) : ∀ (l : List Ins),
    Wf (visitL false Env.empty [] l).2.1 ∧ (visitL false Env.empty [] l).2.1.bad = false ∧
    (visitL false Env.empty [] l).2.2 = [] ∧
    ∀ t, trL nm (visitL false Env.empty [] l).1 t → (∀ x ∈ t, 0 < x.amount) →
      ∀ k, R nm (visitL false Env.empty [] l).2.1 k t
  | [] => by
    refine ⟨⟨fun k => by simp [visitL, Env.empty], fun n i h => by simp [visitL, Env.empty] at h⟩, rfl, rfl, ?_⟩
    intro t ht _ k
    rw [visitL, trL] at ht; subst ht
    rw [R_none (by rfl)]
    exact ⟨fun x hx => by simp at hx, fun h => absurd h not_has_nil⟩
  | i :: is => by
    obtain ⟨h1, hb, h2, h3⟩ := visitL_top nm is
    obtain ⟨g1, gb, g2, g3⟩ := visitI_top nm i (visitL false Env.empty [] is).2.1 h1
    simp only [visitL, h2]
    refine ⟨g1, by rw [gb, hb], g2, ?_⟩
    rintro t ⟨a, b, ha, hb, rfl⟩ hp k
    exact g3 a b ha (fun x hx => hp x (List.mem_append.2 (Or.inl hx)))
      (h3 b hb (fun x hx => hp x (List.mem_append.2 (Or.inr hx)))) k

/-- From the description of the map to the state of the counters. -/
theorem R.inv {nm : Nat → Nat} {e : Env} {k : Nat} {t : List Ev} {san : Bool} {ctr : Comp → Int} (hr : R nm e k t)
    (hc : Has (.cmp k) t → ctr (.cmp k) = total (.cmp k) t) : Inv san ctr t (.cmp k) := by
  by_cases hh : Has (.cmp k) t
  · have hc := hc hh
    rcases he : e.ent (.cmp k) with _ | ⟨n, f⟩
    · rw [R_none he] at hr
      exact Or.inl ⟨A_of_unknown hr.1, hc⟩
    · cases n
      · rw [R_false he] at hr
        exact Or.inr (Or.inl ⟨hr, le_of_eq hc.symm, fun _ => hc⟩)
      · rw [R_true he] at hr
        exact Or.inl ⟨hr.1, hc⟩
  · exact Or.inr (Or.inr hh)

/-! ## Anonymous components -/

/-- Marks of the assignments to an anonymous component: all but the last say so, the last is `last` unless something follows. -/
def marks (ended : Bool) : List Nat → List (Nat × Info)
  | [] => []
  | [s] => [(s, if ended then ⟨.noLast, false⟩ else ⟨.last, false⟩)]
  | s :: s' :: ss => (s, ⟨.noLast, false⟩) :: marks ended (s' :: ss)

theorem marks_cons (ended : Bool) (s : Nat) (ss : List Nat) (h : ss ≠ []) :
    marks ended (s :: ss) = (s, ⟨.noLast, false⟩) :: marks ended ss := by
  cases ss with
  | nil => exact absurd rfl h
  | cons a as => rfl

theorem marks_append (ended : Bool) : ∀ (a b : List Nat), b ≠ [] → marks ended (a ++ b) = marks true a ++ marks ended b
  | [], b, _ => rfl
  | [s], b, h => by
    rw [List.singleton_append, marks_cons _ _ _ h]; rfl
  | s :: s' :: ss, b, h => by
    have := marks_append ended (s' :: ss) b h
    rw [List.cons_append, marks_cons _ _ _ (by simp), this, marks_cons true s _ (by simp), List.cons_append]

/-- The map knows an assignment to the anonymous component. -/
def seen (e : Env) (n : Nat) : Bool := (e.ent (.anon n)).isSome

theorem visitTgt_seen (l : Bool) (e : Env) (lv : List Nat) (tg : Tgt) (n : Nat) :
    seen (visitTgt l e lv tg).2.1 n = (seen e n || decide (tg = .anon n)) := by
  unfold seen
  cases tg with
  | anon m =>
    simp only [visitTgt]
    rcases hm : e.ent (.anon m) with _ | i
    · by_cases h : m = n
      · subst h; simp [set_ent]
      · simp [set_ent, h, Ne.symm h]
    · by_cases h : m = n
      · subst h; simp [hm]
      · simp [h]
  | known name k =>
    simp only [visitTgt]
    rcases he : e.ent (.cmp k) with _ | i
    · by_cases hu : name ∈ e.unk <;> cases l <;> simp [hu, set_ent]
    · by_cases hf : i.found = true
      · simp [hf]
      · by_cases hl : k ∈ lv
        · simp [hf, hl]
        · cases l <;> simp [hf, hl, set_ent]
  | unknown name => simp [visitTgt]

mutual
theorem anonI_visit (n : Nat) (i : Ins) (l : Bool) (e : Env) (lv : List Nat) (h : oneArmI n i = true) :
    anonI n (visitI l e lv i).1 = marks (seen e n) ((anonI n i).map (·.1)) ∧
    seen (visitI l e lv i).2.1 n = (seen e n || decide (anonI n i ≠ [])) := by
  match i with
  | .store s tg size info =>
    by_cases hz : size = some 0
    · simp [visitI, hz, anonI, marks]
    · by_cases ht : tg = .anon n
      · subst ht
        simp only [visitI, if_neg hz, anonI, hz, visitTgt_seen]
        simp only [visitTgt, seen]
        rcases hm : e.ent (.anon n) with _ | i <;> simp [marks, anonI, hz, hm, set_ent]
      · simp [visitI, hz, anonI, ht, visitTgt_seen, marks]
  | .branch a b =>
    simp only [oneArmI, Bool.and_eq_true, Bool.or_eq_true, decide_eq_true_eq] at h
    obtain ⟨ha1, ha2⟩ := anonL_visit n a true e [] h.1.1
    obtain ⟨hb1, hb2⟩ := anonL_visit n b true (visitL true e [] a).2.1 [] h.1.2
    simp only [visitI, anonI, ha1, hb1, hb2, ha2]
    rcases h.2 with hn | hn
    · simp [hn, marks]
    · simp [hn, marks]
  | .loop b =>
    obtain ⟨hb1, hb2⟩ := anonL_visit n b true e [] h
    simp only [visitI, anonI, hb1, hb2]
    exact ⟨trivial, rfl⟩
  | .other => simp [visitI, anonI, marks]

theorem anonL_visit (n : Nat) (l : List Ins) (b : Bool) (e : Env) (lv : List Nat) (h : oneArmL n l = true) :
    anonL n (visitL b e lv l).1 = marks (seen e n) ((anonL n l).map (·.1)) ∧
    seen (visitL b e lv l).2.1 n = (seen e n || decide (anonL n l ≠ [])) := by
  match l with
  | [] => simp [visitL, anonL, marks]
  | i :: is =>
    simp only [oneArmL, Bool.and_eq_true] at h
    obtain ⟨h1, h2⟩ := anonL_visit n is b e lv h.2
    obtain ⟨g1, g2⟩ := anonI_visit n i b (visitL b e lv is).2.1 (visitL b e lv is).2.2 h.1
    simp only [visitL, anonL, h1, g1, g2, h2]
    by_cases hn : anonL n is = []
    · simp [hn, marks]
    · constructor
      · rw [List.map_append, marks_append _ _ _ (by simpa using hn)]
        simp [hn]
      · simp [hn]
end

mutual
/-- Every executed non-empty assignment to an anonymous component comes from an instruction of the list. -/
theorem trI_anon (nm : Nat → Nat) (i : Ins) (t : List Ev) (h : trI nm i t) (x : Ev) (hx : x ∈ t) (hp : 0 < x.amount)
    (n j : Nat) (hc : x.comp = .anon n j) : (x.site, x.info) ∈ anonI n i := by
  match i with
  | .store s tg size info =>
    obtain ⟨y, rfl, hh, hs, hi, ham⟩ := h
    rw [List.mem_singleton] at hx; subst hx
    have hz : size ≠ some 0 := by intro hz; have := ham 0 hz; omega
    have ht : tg = .anon n := by
      cases tg with
      | anon m => obtain ⟨q, hq⟩ := hh; rw [hc] at hq; cases hq; rfl
      | known a b => rw [hc] at hh; simp [hits] at hh
      | unknown a => rw [hc] at hh; simp [hits] at hh
    simp [anonI, ht, hz, hs, hi]
  | .branch a b =>
    rw [anonI, List.mem_append]
    rcases h with h | h
    · exact Or.inl (trL_anon nm a t h x hx hp n j hc)
    · exact Or.inr (trL_anon nm b t h x hx hp n j hc)
  | .loop b =>
    obtain ⟨ts, hts, rfl⟩ := h
    obtain ⟨u, hu, hxu⟩ := List.mem_flatten.1 hx
    exact trL_anon nm b u (hts u hu) x hxu hp n j hc
  | .other => rw [trI] at h; subst h; simp at hx

theorem trL_anon (nm : Nat → Nat) (l : List Ins) (t : List Ev) (h : trL nm l t) (x : Ev) (hx : x ∈ t) (hp : 0 < x.amount)
    (n j : Nat) (hc : x.comp = .anon n j) : (x.site, x.info) ∈ anonL n l := by
  match l with
  | [] => rw [trL] at h; subst h; simp at hx
  | i :: is =>
    obtain ⟨a, b, ha, hb, rfl⟩ := h
    rw [anonL, List.mem_append]
    rcases List.mem_append.1 hx with hx | hx
    · exact Or.inl (trI_anon nm i a ha x hx hp n j hc)
    · exact Or.inr (trL_anon nm is b hb x hx hp n j hc)
end

theorem marks_fst (b : Bool) : ∀ (l : List Nat), (marks b l).map (·.1) = l
  | [] => rfl
  | [s] => rfl
  | s :: s' :: ss => by simp [marks, marks_fst b (s' :: ss)]

/-- Lists of pairs with the same, distinct, first components whose elements all come from the other one are equal. -/
theorem pairs_eq {α β : Type} : ∀ (a b : List (α × β)), a.map (·.1) = b.map (·.1) → (b.map (·.1)).Nodup → (∀ x ∈ a, x ∈ b) → a = b
  | [], [], _, _, _ => rfl
  | [], y :: b, h, _, _ => by simp at h
  | x :: a, [], h, _, _ => by simp at h
  | x :: a, y :: b, h, hn, hm => by
    simp only [List.map_cons, List.cons.injEq] at h
    rw [List.map_cons, List.nodup_cons] at hn
    have hxy : x = y := by
      rcases List.mem_cons.1 (hm x List.mem_cons_self) with h' | h'
      · exact h'
      · exact absurd (by rw [← h.1]; exact List.mem_map_of_mem h') hn.1
    subst hxy
    rw [pairs_eq a b h.2 hn.2 (fun z hz => ?_)]
    rcases List.mem_cons.1 (hm z (List.mem_cons_of_mem _ hz)) with h' | h'
    · subst h'
      exact absurd (by rw [← h.2]; exact List.mem_map_of_mem hz) hn.1
    · exact h'

theorem B_of_filter (c : Comp) : ∀ (t : List Ev) (s : List Nat), s ≠ [] →
    ((t.filter fun e => decide (e.comp = c)).map fun e => (e.site, e.info)) = marks false s → B c t
  | [], s, hs, h => by
    have := congrArg (List.map (·.1)) h
    rw [marks_fst] at this
    exact absurd this.symm hs
  | e :: t, s, hs, h => by
    by_cases hc : e.comp = c
    · rw [List.filter_cons_of_pos (by simpa using hc)] at h
      cases s with
      | nil => exact absurd rfl hs
      | cons a as =>
        cases as with
        | nil =>
          simp only [marks, List.map_cons, List.cons.injEq, Prod.mk.injEq, List.map_eq_nil_iff] at h
          refine Or.inl ⟨hc, by simpa using h.1.2, ?_⟩
          rintro ⟨x, hx, hxc⟩
          have : x ∈ t.filter fun e => decide (e.comp = c) := List.mem_filter.2 ⟨hx, by simpa using hxc⟩
          rw [h.2] at this; simp at this
        | cons b bs =>
          simp only [marks, List.map_cons, List.cons.injEq, Prod.mk.injEq] at h
          exact Or.inr ⟨fun _ => Or.inl (by rw [h.1.2]), B_of_filter c t (b :: bs) (by simp) h.2⟩
    · rw [List.filter_cons_of_neg (by simpa using hc)] at h
      exact Or.inr ⟨fun h' => absurd h' hc, B_of_filter c t s hs h⟩

theorem anon_B (nm : Nat → Nat) (prog : List Ins) (t : List Ev) (n j : Nat) (htr : trL nm (analyse prog) t)
    (hp : ∀ x ∈ t, 0 < x.amount) (harm : oneArmL n prog = true) (hnd : ((anonL n prog).map (·.1)).Nodup)
    (hall : (t.filter fun e => decide (e.comp = .anon n j)).map (·.site) = (anonL n prog).map (·.1))
    (hh : Has (.anon n j) t) : B (.anon n j) t := by
  have hm : anonL n (analyse prog) = marks false ((anonL n prog).map (·.1)) := by
    have := (anonL_visit n prog false Env.empty [] harm).1
    simpa [analyse, seen, Env.empty] using this
  have hne : (anonL n prog).map (·.1) ≠ [] := by
    obtain ⟨x, hx, hxc⟩ := hh
    intro hc
    rw [hc, List.map_eq_nil_iff] at hall
    have : x ∈ t.filter fun e => decide (e.comp = .anon n j) := List.mem_filter.2 ⟨hx, by simpa using hxc⟩
    rw [hall] at this; simp at this
  refine B_of_filter _ t _ hne ?_
  rw [← hm]
  refine pairs_eq _ _ ?_ ?_ ?_
  · rw [hm, marks_fst, List.map_map, ← hall]; rfl
  · rw [hm, marks_fst]; exact hnd
  · intro p hpm
    obtain ⟨x, hx, rfl⟩ := List.mem_map.1 hpm
    rw [List.mem_filter] at hx
    exact trL_anon nm _ t htr x hx.1 (hp x hx.1) n j (by simpa using hx.2)

end Verif.Runs
