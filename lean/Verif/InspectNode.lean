import Verif.InspectNames

/-! # The analysis of one template and of a program -/

set_option linter.unusedSectionVars false
set_option linter.unusedSimpArgs false
set_option linter.unusedVariables false

namespace Verif.Inspect
open Verif.ModArith (Res Fail)
open Verif.Algebra Verif.Dag
open Verif.Props.Algebra (ok_bind)

variable {p : Nat}

/-! ## Order -/

theorem nameLe_total : ∀ a b : Name, (nameLe a b || nameLe b a) = true
  | [], _ => by simp [nameLe]
  | _ :: _, [] => by simp [nameLe]
  | x :: a, y :: b => by
    have := nameLe_total a b
    simp only [nameLe]
    split
    · simp
    · split
      · simp
      · exact this

theorem nameLe_trans : ∀ a b c : Name, nameLe a b = true → nameLe b c = true → nameLe a c = true
  | [], _, _, _, _ => by simp [nameLe]
  | _ :: _, [], _, h, _ => by simp [nameLe] at h
  | _ :: _, _ :: _, [], _, h => by simp [nameLe] at h
  | x :: a, y :: b, z :: c, h1, h2 => by
    simp only [nameLe] at h1 h2 ⊢
    by_cases hxy : x.toNat < y.toNat
    · by_cases hyz : z.toNat < y.toNat
      · rw [if_neg (by omega), if_pos hyz] at h2; simp at h2
      · rw [if_pos (by omega)]
    · rw [if_neg hxy] at h1
      by_cases hyx : y.toNat < x.toNat
      · rw [if_pos hyx] at h1; simp at h1
      · rw [if_neg hyx] at h1
        by_cases hyz : y.toNat < z.toNat
        · rw [if_pos (by omega)]
        · rw [if_neg hyz] at h2
          by_cases hzy : z.toNat < y.toNat
          · rw [if_pos hzy] at h2; simp at h2
          · rw [if_neg hzy] at h2
            rw [if_neg (by omega), if_neg (by omega)]
            exact nameLe_trans a b c h1 h2

theorem nameLe_lt : ∀ a b : Name, nameLe a b = true → a ≠ b → a < b
  | [], [], _, h => absurd rfl h
  | [], y :: b, _, _ => by simp
  | _ :: _, [], h, _ => by simp [nameLe] at h
  | x :: a, y :: b, h, hne => by
    have hlt : ∀ u v : Char, u < v ↔ u.toNat < v.toNat := fun u v => Iff.rfl
    rw [List.cons_lt_cons_iff]
    simp only [nameLe] at h
    by_cases hxy : x.toNat < y.toNat
    · exact Or.inl ((hlt _ _).2 hxy)
    · rw [if_neg hxy] at h
      by_cases hyx : y.toNat < x.toNat
      · rw [if_pos hyx] at h; simp at h
      · rw [if_neg hyx] at h
        have : x = y := Char.toNat_inj.1 (by omega)
        subst this
        exact Or.inr ⟨rfl, nameLe_lt a b h fun he => hne (by rw [he])⟩

theorem lt_irrefl_name (a : Name) : ¬ a < a := by
  rw [← nameLe_iff]
  have := nameLe_total a a
  simpa using this

/-! ## One template -/

/-- Spec: every signal used in the constraints of a template and every signal it assigns to `_` is its own, or an input or output of a
subcomponent. -/
def AllVisible (ts : List Template) (t : Template) (us : List Name) : Prop :=
  (∀ s, Appears t s → s = [] ∨ Visible ts t s) ∧ ∀ s ∈ us, Visible ts t s

/-- Spec: a signal that is in no constraint of a template and not assigned to `_`. -/
def Loose (t : Template) (us : List Name) (s : Name) : Prop := ¬ Appears t s ∧ s ∉ us

/-- The statistics of a template. -/
structure Stated (ts : List Template) (t : Template) (us : List Name) (stats : List Stat) : Prop where
  sorted : (stats.map Stat.name).Pairwise (· < ·)
  sound : ∀ st ∈ stats, Visible ts t st.name ∧ (st.isLocal = true ↔ st.name ∈ locNames t) ∧ (st.appearances = 0 ↔ Loose t us st.name)
  all : ∀ s, Visible ts t s → ∃ st ∈ stats, st.name = s

theorem visit_spec {ts : List Template} (h : Program p ts) {i : Nat} {t : Template} (ht : ts[i]? = some t) {n : Node} {es : List Edge}
    {cs : List C} (hcs : numbered ts t = .ok cs) (hn : NodeOK ts i t n es (cleaned cs)) {us : List Name} {ids : List Nat}
    (hu : List.Forall₂ (fun s x => (s, x) ∈ table ts t) us ids) :
    (AllVisible ts t us → ∃ stats, visitNode n ids = .ok stats ∧ Stated ts t us stats) ∧
    (¬ AllVisible ts t us → visitNode n ids = .error .panic) := by
  have hmem := List.mem_of_getElem? ht
  have hvals := (table_values h.named.order ht).2
  have hrows : rowsOf n = ((table ts t).filter fun e => n.reachables.contains e.2).map fun e => (e.2, e.1, 0) := by
    rw [rowsOf_eq n (by rw [hn.corr]; exact hvals), hn.corr]
  have hids : ∀ x, x ∈ (rowsOf n).map Prod.fst ↔ ∃ s, (s, x) ∈ table ts t ∧ Visible ts t s := by
    intro x
    rw [hrows, List.map_map]
    simp only [List.mem_map, List.mem_filter, Function.comp_apply, List.contains_iff_mem]
    constructor
    · rintro ⟨e, ⟨he, hr⟩, rfl⟩
      exact ⟨e.1, he, (reach_number h.named ht hn he).1 hr⟩
    · rintro ⟨s, hs, hv⟩
      exact ⟨(s, x), ⟨hs, (reach_number h.named ht hn hs).2 hv⟩, rfl⟩
  have hnodup : ((rowsOf n).map Prod.fst).Nodup := by
    rw [hrows, List.map_map]
    exact List.Nodup.sublist (List.Sublist.map _ List.filter_sublist) hvals
  have hiff : (∀ x ∈ mentions n ids, x ∈ (rowsOf n).map Prod.fst) ↔ AllVisible ts t us := by
    constructor
    · intro hall
      have key : ∀ s x, (s, x) ∈ table ts t → (Appears t s ∨ s ∈ us) → Visible ts t s := by
        intro s x hx hs
        obtain ⟨s', h1, h2⟩ := (hids x).1 (hall x ((mentions_number h ht hcs hn hu hx).2 hs))
        rw [table_value h.named ht hx h1]
        exact h2
      refine ⟨fun s hs => ?_, fun s hs => ?_⟩
      · rcases appears_known h hmem hs with h0 | ⟨x, hx⟩
        · exact Or.inl h0
        · exact Or.inr (key s x hx (Or.inl hs))
      · have : ∃ x, (s, x) ∈ table ts t := by
          clear hall key
          induction hu with
          | nil => simp at hs
          | cons hh _ ih =>
            rcases List.mem_cons.1 hs with rfl | hs
            · exact ⟨_, hh⟩
            · exact ih hs
        obtain ⟨x, hx⟩ := this
        exact key s x hx (Or.inr hs)
    · intro hall x hx
      obtain ⟨s, hs⟩ := mentions_names h ht hcs hn hu hx
      refine (hids x).2 ⟨s, hs, ?_⟩
      rcases (mentions_number h ht hcs hn hu hs).1 hx with ha | ha
      · rcases hall.1 s ha with rfl | hv
        · exact absurd rfl (known_ne h.named hmem ((known_iff ts t []).1 (List.mem_map_of_mem (f := Prod.fst) hs)))
        · exact hv
      · exact hall.2 s ha
  constructor
  · intro hall
    have hcount : countRows n ids = .ok (added (rowsOf n) (mentions n ids)) := by
      rw [countRows_eq]
      exact bumps_some _ _ hnodup (hiff.2 hall)
    refine ⟨_, by unfold visitNode; rw [hcount, ok_bind], ?_⟩
    have hperm := List.perm_insertionSort (fun a b : Stat => nameLe a.name b.name = true)
      ((added (rowsOf n) (mentions n ids)).map fun r => (⟨r.2.1, n.locals.contains r.1, r.2.2⟩ : Stat))
    have hmemst : ∀ st : Stat, st ∈ ((added (rowsOf n) (mentions n ids)).map fun r => (⟨r.2.1, n.locals.contains r.1, r.2.2⟩ : Stat)) ↔
        ∃ s x, (s, x) ∈ table ts t ∧ Visible ts t s ∧ st = ⟨s, n.locals.contains x, (mentions n ids).count x⟩ := by
      intro st
      unfold added
      rw [hrows]
      simp only [List.map_map, List.mem_map, List.mem_filter, Function.comp_apply, List.contains_iff_mem, Nat.zero_add]
      constructor
      · rintro ⟨e, ⟨he, hr⟩, rfl⟩
        exact ⟨e.1, e.2, he, (reach_number h.named ht hn he).1 hr, rfl⟩
      · rintro ⟨s, x, hs, hv, rfl⟩
        exact ⟨(s, x), ⟨hs, (reach_number h.named ht hn hs).2 hv⟩, rfl⟩
    refine ⟨?_, fun st hst => ?_, fun s hs => ?_⟩
    · have hnames : (((added (rowsOf n) (mentions n ids)).map fun r => (⟨r.2.1, n.locals.contains r.1, r.2.2⟩ : Stat)).map Stat.name).Nodup := by
        unfold added
        rw [hrows]
        simp only [List.map_map]
        exact List.Nodup.sublist (List.Sublist.map _ List.filter_sublist) (table_fresh h.named t hmem)
      have hnames' := (List.Perm.map Stat.name hperm).nodup_iff.2 hnames
      haveI : Std.Total (fun a b : Stat => nameLe a.name b.name = true) :=
        ⟨fun a b => by simpa [Bool.or_eq_true] using nameLe_total a.name b.name⟩
      haveI : IsTrans Stat (fun a b : Stat => nameLe a.name b.name = true) := ⟨fun a b c => nameLe_trans a.name b.name c.name⟩
      have hsort := List.pairwise_insertionSort (fun a b : Stat => nameLe a.name b.name = true)
        ((added (rowsOf n) (mentions n ids)).map fun r => (⟨r.2.1, n.locals.contains r.1, r.2.2⟩ : Stat))
      rw [List.pairwise_map]
      have hn2 : List.Pairwise (fun a b : Stat => a.name ≠ b.name) _ := List.pairwise_map.1 hnames'
      exact (hsort.and hn2).imp fun hab => nameLe_lt _ _ hab.1 hab.2
    · obtain ⟨s, x, hx, hv, rfl⟩ := (hmemst st).1 (hperm.mem_iff.1 hst)
      refine ⟨hv, ?_, ?_⟩
      · simp only [List.contains_iff_mem]
        rw [hn.locals]
        exact local_number h.named ht hx
      · simp only
        rw [List.count_eq_zero, mentions_number h ht hcs hn hu hx, not_or]
        rfl
    · obtain ⟨y, hy, he⟩ := List.mem_map.1 ((known_iff ts t s).2 (visible_known hs))
      refine ⟨_, hperm.mem_iff.2 ((hmemst _).2 ⟨s, y.2, by rw [← he]; exact hy, hs, rfl⟩), rfl⟩
  · intro hall
    unfold visitNode
    rw [countRows_eq, bumps_none _ _ hnodup fun hh => hall (hiff.1 hh)]
    rfl

/-- Spec: what a warning says about the loose signals of an array. -/
def Describes : Report → Bool → Name → Name → List Name → Prop
  | .single k tm s, k', tm', _, ex => k = k' ∧ tm = tm' ∧ ex = [s]
  | .several k tm a m s s', k', tm', a', ex => k = k' ∧ tm = tm' ∧ a = a' ∧ ex.length = m ∧ 2 ≤ m ∧ ex[0]? = some s ∧ ex[1]? = some s'

theorem report_iff (tm : Name) (g : Name × Bool × List Name) (r : Report) :
    report tm g = .ok r ↔ Describes r g.2.1 tm g.1 g.2.2 := by
  obtain ⟨a, k, ex⟩ := g
  unfold report
  match ex with
  | [] => cases r <;> simp [Describes]
  | [e] => cases r <;> simp [Describes, eq_comm]
  | e :: e' :: l =>
    cases r with
    | single => simp [Describes]
    | several k' tm' a' m s s' =>
      simp only [Describes, Except.ok.injEq, Report.several.injEq, List.length_cons, List.getElem?_cons_zero, Option.some.injEq,
        List.getElem?_cons_succ]
      constructor
      · rintro ⟨rfl, rfl, rfl, rfl, rfl, rfl⟩; exact ⟨rfl, rfl, rfl, rfl, by omega, rfl, rfl⟩
      · rintro ⟨rfl, rfl, rfl, h, _, rfl, rfl⟩; exact ⟨rfl, rfl, rfl, by omega, rfl, rfl⟩

/-- Spec: the loose signals of an array in the order of their names. -/
def LooseIn (t : Template) (us : List Name) (a : List Name) (ex : List Name) : Prop :=
  ex.Pairwise (· < ·) ∧ ∀ s, s ∈ ex ↔ s ∈ a ∧ Loose t us s

theorem groups_spec {ts : List Template} (h : WellNamed ts) {t : Template} (ht : t ∈ ts) {us : List Name} {stats : List Stat}
    (hst : Stated ts t us stats) (k : Bool) (g : Name) (ex : List Name) :
    (g, k, ex) ∈ groupsOf stats ↔ ex ≠ [] ∧ ∃ l, (k, g, l) ∈ exposed ts t ∧ LooseIn t us l ex := by
  have hG := grouped stats
  have hmem : ∀ g s, s ∈ (members (stats.filter fun s => decide (s.appearances = 0)) g).map Stat.name ↔
      Visible ts t s ∧ Loose t us s ∧ stem s = g := by
    intro g s
    unfold members
    simp only [List.mem_map, List.mem_filter, decide_eq_true_eq]
    constructor
    · rintro ⟨st, ⟨⟨h1, h2⟩, h3⟩, rfl⟩
      have := hst.sound st h1
      exact ⟨this.1, this.2.2.1 h2, h3⟩
    · rintro ⟨h1, h2, h3⟩
      obtain ⟨st, hs, rfl⟩ := hst.all s h1
      exact ⟨st, ⟨⟨hs, (hst.sound st hs).2.2.2 h2⟩, h3⟩, rfl⟩
  have hsub : ∀ g, (members (stats.filter fun s => decide (s.appearances = 0)) g).Sublist stats := by
    intro g
    exact List.filter_sublist.trans List.filter_sublist
  have hsort : ∀ g, ((members (stats.filter fun s => decide (s.appearances = 0)) g).map Stat.name).Pairwise (· < ·) := by
    intro g
    exact List.Pairwise.sublist ((hsub g).map _) hst.sorted
  have hloose : ∀ {k : Bool} {g : Name} {l : List Name}, (k, g, l) ∈ exposed ts t → ∀ s, (Visible ts t s ∧ Loose t us s ∧ stem s = g) ↔ s ∈ l ∧ Loose t us s := by
    intro k g l ha s
    constructor
    · rintro ⟨h1, h2, h3⟩
      obtain ⟨a', ha', hs'⟩ := exposed_cover.1 h1
      have hstem := exposed_stem h ht ha' hs'
      rw [h3] at hstem
      have := exposed_inj h ht ha ha' hstem
      rw [← this] at hs'
      exact ⟨hs', h2⟩
    · rintro ⟨h1, h2⟩
      exact ⟨exposed_cover.2 ⟨_, ha, h1⟩, h2, exposed_stem h ht ha h1⟩
  rw [hG.mem]
  constructor
  · rintro ⟨h1, h2, h3⟩
    simp only at h1 h2 h3
    refine ⟨h2, ?_⟩
    obtain ⟨st, l, hl⟩ := List.exists_cons_of_ne_nil (l := members (stats.filter fun s => decide (s.appearances = 0)) g) (by
      intro he; rw [he] at h1; exact h2 h1)
    have hstm : st ∈ members (stats.filter fun s => decide (s.appearances = 0)) g := by rw [hl]; simp
    have hv := (hmem g st.name).1 (List.mem_map_of_mem (f := Stat.name) hstm)
    obtain ⟨a, ha, hs⟩ := exposed_cover.1 hv.1
    have hg := exposed_stem h ht ha hs
    rw [hv.2.2] at hg
    have hk : a.1 = k := by
      rw [hl] at h3
      simp only [List.head?_cons, Option.map_some, Option.some.injEq] at h3
      have e1 := exposed_kind h ht ha hs
      have e2 := (hst.sound st ((hsub g).subset hstm)).2.1
      rw [h3]
      rw [Bool.eq_iff_iff, e1, e2]
    obtain ⟨a1, a2, a3⟩ := a
    simp only at hg hk
    subst hg; subst hk
    refine ⟨a3, ha, by rw [h1]; exact hsort g, fun s => ?_⟩
    rw [h1, hmem]
    exact hloose ha s
  · rintro ⟨h2, l, ha, h3, h4⟩
    have hex : ex = (members (stats.filter fun s => decide (s.appearances = 0)) g).map Stat.name := by
      haveI : Std.Irrefl (fun a b : Name => a < b) := ⟨lt_irrefl_name⟩
      haveI : Std.Antisymm (fun a b : Name => a < b) := ⟨fun a b h1 h2 => by
        have ha := (nameLe_iff a b)
        have hb := (nameLe_iff b a)
        have ht := nameLe_total a b
        simp only [Bool.or_eq_true] at ht
        rcases ht with ht | ht
        · exact absurd h2 (ha.1 ht)
        · exact absurd h1 (hb.1 ht)⟩
      refine List.Pairwise.eq_of_mem_iff (r := fun a b : Name => a < b) h3 (hsort g) fun s => ?_
      rw [hmem, hloose ha, h4]
    refine ⟨hex, h2, ?_⟩
    simp only
    obtain ⟨st, l', hl⟩ := List.exists_cons_of_ne_nil (l := members (stats.filter fun s => decide (s.appearances = 0)) g) (by
      intro he; rw [he] at hex; exact h2 hex)
    have hstm : st ∈ members (stats.filter fun s => decide (s.appearances = 0)) g := by rw [hl]; simp
    have hin : st.name ∈ l := by
      have : st.name ∈ ex := by rw [hex]; exact List.mem_map_of_mem (f := Stat.name) hstm
      exact ((h4 _).1 this).1
    have e1 := exposed_kind h ht ha hin
    have e2 := (hst.sound st ((hsub g).subset hstm)).2.1
    rw [hl]
    simp only [List.head?_cons, Option.map_some, Option.some.injEq]
    rw [Bool.eq_iff_iff, e2]
    exact e1

/-- Spec: the warnings about one template. -/
def About (ts : List Template) (t : Template) (us : List Name) (r : Report) : Prop :=
  ∃ a ∈ exposed ts t, ∃ ex, LooseIn t us a.2.2 ex ∧ Describes r a.1 t.name a.2.1 ex

theorem describes_ne {r : Report} {k : Bool} {tm a : Name} {ex : List Name} (h : Describes r k tm a ex) : ex ≠ [] := by
  cases r with
  | single => rw [h.2.2]; simp
  | several => intro he; rw [he] at h; simp [Describes] at h

theorem describes_some {k : Bool} {tm a : Name} {ex : List Name} (h : ex ≠ []) : ∃ r, Describes r k tm a ex := by
  match ex with
  | [] => exact absurd rfl h
  | [e] => exact ⟨.single k tm e, rfl, rfl, rfl⟩
  | e :: e' :: l => exact ⟨.several k tm a (l.length + 2) e e', rfl, rfl, rfl, rfl, by omega, rfl, rfl⟩

theorem describes_template {r r' : Report} {k k' : Bool} {tm tm' a a' : Name} {ex ex' : List Name} (h : Describes r k tm a ex)
    (h' : Describes r' k' tm' a' ex') (he : r = r') : tm = tm' := by
  subst he
  cases r with
  | single => exact h.2.1.symm.trans h'.2.1
  | several => exact h.2.1.symm.trans h'.2.1

theorem interpret_spec {ts : List Template} (h : WellNamed ts) {t : Template} (ht : t ∈ ts) {us : List Name} {stats : List Stat}
    (hst : Stated ts t us stats) : ∃ rs, interpret t.name stats = .ok rs ∧ rs.Nodup ∧ ∀ r, r ∈ rs ↔ About ts t us r := by
  have hG := groups_spec h ht hst
  have hkeys := (grouped stats).keys
  have hok : ∀ g ∈ groupsOf stats, ∃ r, report t.name g = .ok r := by
    intro g hg
    obtain ⟨r, hr⟩ := describes_some (k := g.2.1) (tm := t.name) (a := g.1) ((hG g.2.1 g.1 g.2.2).1 hg).1
    exact ⟨r, (report_iff _ _ _).2 hr⟩
  have hstem : ∀ g ∈ groupsOf stats, ∀ s ∈ g.2.2, stem s = g.1 := by
    intro g hg s hs
    obtain ⟨_, l, ha, _, h4⟩ := (hG g.2.1 g.1 g.2.2).1 hg
    exact exposed_stem h ht ha ((h4 s).1 hs).1
  have hrun : ∀ gs : Groups, (∀ g ∈ gs, g ∈ groupsOf stats) → (gs.map Prod.fst).Nodup → ∃ rs, gs.mapM (report t.name) = .ok rs ∧
      rs.Nodup ∧ ∀ r, r ∈ rs ↔ ∃ g ∈ gs, report t.name g = .ok r := by
    intro gs hsub hn
    induction gs with
    | nil => exact ⟨[], rfl, by simp, by simp⟩
    | cons g gs ih =>
      simp only [List.map_cons, List.nodup_cons] at hn
      obtain ⟨rs, h1, h2, h3⟩ := ih (fun g hg => hsub g (by simp [hg])) hn.2
      obtain ⟨r, hr⟩ := hok g (hsub g (by simp))
      refine ⟨r :: rs, by rw [List.mapM_cons, hr, ok_bind, h1, ok_bind]; rfl, ?_, ?_⟩
      · rw [List.nodup_cons]
        refine ⟨fun hin => ?_, h2⟩
        obtain ⟨g', hg', hr'⟩ := (h3 r).1 hin
        have d1 := (report_iff _ _ _).1 hr
        have d2 := (report_iff _ _ _).1 hr'
        have : g.1 = g'.1 := by
          cases r with
          | single k tm s =>
            have e1 := hstem g (hsub g (by simp)) s (by rw [d1.2.2]; simp)
            have e2 := hstem g' (hsub g' (by simp [hg'])) s (by rw [d2.2.2]; simp)
            rw [← e1, ← e2]
          | several k tm a m s s' => exact d1.2.2.1.symm.trans d2.2.2.1
        exact hn.1 (this ▸ List.mem_map_of_mem (f := Prod.fst) hg')
      · intro r'
        simp only [List.mem_cons, h3]
        constructor
        · rintro (rfl | ⟨g', hg', hr'⟩)
          · exact ⟨g, Or.inl rfl, hr⟩
          · exact ⟨g', Or.inr hg', hr'⟩
        · rintro ⟨g', rfl | hg', hr'⟩
          · rw [hr] at hr'; injection hr' with hr'; exact Or.inl hr'.symm
          · exact Or.inr ⟨g', hg', hr'⟩
  obtain ⟨rs, h1, h2, h3⟩ := hrun _ (fun _ h => h) hkeys
  refine ⟨rs, h1, h2, fun r => ?_⟩
  rw [h3]
  constructor
  · rintro ⟨g, hg, hr⟩
    obtain ⟨_, l, ha, hl⟩ := (hG g.2.1 g.1 g.2.2).1 hg
    exact ⟨_, ha, g.2.2, hl, (report_iff _ _ _).1 hr⟩
  · rintro ⟨a, ha, ex, hl, hd⟩
    exact ⟨(a.2.1, a.1, ex), (hG _ _ _).2 ⟨describes_ne hd, a.2.2, ha, hl⟩, (report_iff _ _ _).2 hd⟩

end Verif.Inspect
