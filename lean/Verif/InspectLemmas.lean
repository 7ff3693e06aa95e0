import Verif.Inspect
import Verif.PlaceLemmas

/-! # Lemmas about the `--inspect` analysis -/

set_option linter.unusedSectionVars false
set_option linter.unusedSimpArgs false
set_option linter.unusedVariables false

namespace Verif.Inspect
open Verif.ModArith (Res Fail)
open Verif.Algebra Verif.Dag
open Verif.Props.Algebra (ok_bind)

/-! ## Rows -/

theorem enter_new (rs : Rows) (i : Nat) (n : Name) (h : i ∉ rs.map Prod.fst) : rs.enter i n = rs ++ [(i, n, 0)] := by
  induction rs with
  | nil => rfl
  | cons r rs ih =>
    simp only [List.map_cons, List.mem_cons, not_or] at h
    simp only [Rows.enter, if_neg (Ne.symm h.1), ih h.2, List.cons_append]

theorem rows_fold (reach : List Nat) (m : NMap) (hm : (m.map Prod.snd).Nodup) (acc : Rows)
    (hacc : ∀ e ∈ m, e.2 ∉ acc.map Prod.fst) :
    m.foldl (fun rs e => if reach.contains e.2 then rs.enter e.2 e.1 else rs) acc =
      acc ++ (m.filter fun e => reach.contains e.2).map fun e => (e.2, e.1, 0) := by
  induction m generalizing acc with
  | nil => simp
  | cons e m ih =>
    simp only [List.map_cons, List.nodup_cons] at hm
    rw [List.foldl_cons]
    by_cases hr : reach.contains e.2 = true
    · rw [if_pos hr, enter_new _ _ _ (hacc e (by simp)), ih hm.2 _ fun e' he' => ?_, List.filter_cons_of_pos (by simpa using hr)]
      · simp
      · simp only [List.map_append, List.map_cons, List.map_nil, List.mem_append, List.mem_singleton, not_or]
        exact ⟨hacc e' (by simp [he']), fun h => hm.1 (h ▸ List.mem_map_of_mem (f := Prod.snd) he')⟩
    · rw [if_neg hr, ih hm.2 _ fun e' he' => hacc e' (by simp [he']), List.filter_cons_of_neg (by simpa using hr)]

theorem rowsOf_eq (n : Node) (hm : (n.correspondence.map Prod.snd).Nodup) :
    rowsOf n = (n.correspondence.filter fun e => n.reachables.contains e.2).map fun e => (e.2, e.1, 0) := by
  unfold rowsOf
  rw [rows_fold _ _ hm [] (by simp), List.nil_append]

theorem bump_none (rs : Rows) (s : Nat) (h : s ∉ rs.map Prod.fst) : bump rs s = .error .panic := by
  induction rs with
  | nil => rfl
  | cons r rs ih =>
    simp only [List.map_cons, List.mem_cons, not_or] at h
    simp only [bump, if_neg (Ne.symm h.1), ih h.2]
    rfl

theorem bump_some (rs : Rows) (s : Nat) (h : s ∈ rs.map Prod.fst) (hn : (rs.map Prod.fst).Nodup) :
    bump rs s = .ok (rs.map fun r => (r.1, r.2.1, r.2.2 + if r.1 = s then 1 else 0)) := by
  induction rs with
  | nil => simp at h
  | cons r rs ih =>
    simp only [List.map_cons, List.nodup_cons] at hn
    by_cases hs : r.1 = s
    · simp only [bump, if_pos hs, List.map_cons]
      congr 2
      rw [← hs]
      have : rs.map (fun r' => (r'.1, r'.2.1, r'.2.2 + if r'.1 = r.1 then 1 else 0)) = rs.map id := by
        apply List.map_congr_left
        intro r' hr'
        rw [if_neg fun he : r'.1 = r.1 => hn.1 (he ▸ List.mem_map_of_mem (f := Prod.fst) hr')]
        rfl
      rw [this, List.map_id]
    · simp only [List.map_cons, List.mem_cons] at h
      simp only [bump, if_neg hs, List.map_cons]
      rw [ih (h.resolve_left (Ne.symm hs)) hn.2]
      rfl

/-- Rows with the appearances in a list added. -/
def added (rs : Rows) (l : List Nat) : Rows := rs.map fun r => (r.1, r.2.1, r.2.2 + l.count r.1)

theorem added_fst (rs : Rows) (l : List Nat) : (added rs l).map Prod.fst = rs.map Prod.fst := by
  unfold added; rw [List.map_map]; rfl

theorem bumps_some (l : List Nat) (rs : Rows) (hn : (rs.map Prod.fst).Nodup) (h : ∀ s ∈ l, s ∈ rs.map Prod.fst) :
    l.foldlM bump rs = .ok (added rs l) := by
  induction l generalizing rs with
  | nil => simp [added, pure, Except.pure]
  | cons s l ih =>
    have hb := bump_some rs s (h s (by simp)) hn
    rw [List.foldlM_cons, hb, ok_bind]
    have hf : (rs.map fun r => (r.1, r.2.1, r.2.2 + if r.1 = s then 1 else 0)).map Prod.fst = rs.map Prod.fst := by
      rw [List.map_map]; rfl
    rw [ih _ (by rw [hf]; exact hn) (by rw [hf]; exact fun x hx => h x (by simp [hx]))]
    unfold added
    rw [List.map_map]
    congr 1
    apply List.map_congr_left
    intro r _
    simp only [Function.comp_apply, List.count_cons, beq_iff_eq, eq_comm (a := s), Prod.mk.injEq, true_and]
    omega

theorem bumps_none (l : List Nat) (rs : Rows) (hn : (rs.map Prod.fst).Nodup) (h : ¬ ∀ s ∈ l, s ∈ rs.map Prod.fst) :
    l.foldlM bump rs = .error .panic := by
  induction l generalizing rs with
  | nil => simp at h
  | cons s l ih =>
    rw [List.foldlM_cons]
    by_cases hs : s ∈ rs.map Prod.fst
    · rw [bump_some rs s hs hn, ok_bind]
      have hf : (rs.map fun r => (r.1, r.2.1, r.2.2 + if r.1 = s then 1 else 0)).map Prod.fst = rs.map Prod.fst := by
        rw [List.map_map]; rfl
      refine ih _ (by rw [hf]; exact hn) fun hall => h fun x hx => ?_
      rcases List.mem_cons.1 hx with rfl | hx
      · exact hs
      · have := hall x hx
        rw [hf] at this
        exact this
    · rw [bump_none rs s hs]
      rfl

theorem foldlM_flat {α β γ : Type} (f : γ → β → Res γ) (g : α → List β) (l : List α) (init : γ) :
    l.foldlM (fun acc a => (g a).foldlM f acc) init = (l.flatMap g).foldlM f init := by
  induction l generalizing init with
  | nil => rfl
  | cons a l ih =>
    simp only [List.foldlM_cons, List.flatMap_cons, List.foldlM_append]
    congr 1
    funext x
    exact ih x

/-- All appearances of signals in a node. -/
def mentions (n : Node) (us : List Nat) : List Nat := (n.constraints.flatMap fun c => c.takeSignals.dedup) ++ us

theorem countRows_eq (n : Node) (us : List Nat) : countRows n us = (mentions n us).foldlM bump (rowsOf n) := by
  unfold countRows mentions
  rw [foldlM_flat, List.foldlM_append]

theorem mem_mentions (n : Node) (us : List Nat) (s : Nat) :
    s ∈ mentions n us ↔ (s ≠ 0 ∧ ∃ c ∈ n.constraints, c.Occurs s) ∨ s ∈ us := by
  unfold mentions
  rw [List.mem_append, List.mem_flatMap]
  refine or_congr ⟨?_, ?_⟩ Iff.rfl
  · rintro ⟨c, hc, hs⟩
    rw [List.mem_dedup] at hs
    simp only [Constraint.takeSignals, List.mem_filter, List.mem_append, decide_eq_true_eq] at hs
    refine ⟨hs.2, c, hc, ?_⟩
    rcases hs.1 with (h | h) | h
    · exact Or.inl h
    · exact Or.inr (Or.inl h)
    · exact Or.inr (Or.inr h)
  · rintro ⟨h0, c, hc, hs⟩
    refine ⟨c, hc, ?_⟩
    rw [List.mem_dedup]
    simp only [Constraint.takeSignals, List.mem_filter, List.mem_append, decide_eq_true_eq]
    refine ⟨?_, h0⟩
    rcases hs with h | h | h
    · exact Or.inl (Or.inl h)
    · exact Or.inl (Or.inr h)
    · exact Or.inr h

/-! ## The order of names -/

theorem nameLe_iff : ∀ a b : Name, nameLe a b = true ↔ ¬ b < a
  | [], b => by simp [nameLe]
  | x :: a, [] => by simp [nameLe]
  | x :: a, y :: b => by
    have hlt : ∀ u v : Char, u < v ↔ u.toNat < v.toNat := fun u v => Iff.rfl
    have hinj : ∀ u v : Char, u.toNat = v.toNat → u = v := fun u v h => Char.toNat_inj.1 h
    rw [List.cons_lt_cons_iff]
    simp only [nameLe]
    split
    · next h =>
      have h1 : ¬ y < x := by rw [hlt]; omega
      have h2 : y ≠ x := fun he => by subst he; omega
      simp [h1, h2]
    · next h =>
      split
      · next h' => simp [(hlt y x).2 h']
      · next h' =>
        have : y = x := hinj _ _ (by omega)
        subst this
        rw [nameLe_iff a b]
        have h1 : ¬ y < y := by rw [hlt]; omega
        simp [h1]

/-! ## Groups -/

/-- The signals of a list that are in a group. -/
def members (U : List Stat) (g : Name) : List Stat := U.filter fun s => decide (stem s.name = g)

/-- The groups of a list of signals. -/
structure Grouped (U : List Stat) (gs : Groups) : Prop where
  keys : (gs.map Prod.fst).Nodup
  mem : ∀ x : Name × Bool × List Name, x ∈ gs ↔ x.2.2 = (members U x.1).map Stat.name ∧ x.2.2 ≠ [] ∧
    some x.2.1 = (members U x.1).head?.map Stat.isLocal

theorem members_snoc (U : List Stat) (s : Stat) (g : Name) :
    members (U ++ [s]) g = members U g ++ if stem s.name = g then [s] else [] := by
  unfold members
  rw [List.filter_append]
  congr 1
  by_cases h : stem s.name = g <;> simp [h]

theorem join_absent (gs : Groups) (g : Name) (k : Bool) (n : Name) (h : g ∉ gs.map Prod.fst) : gs.join g k n = gs ++ [(g, k, [n])] := by
  induction gs with
  | nil => rfl
  | cons x gs ih =>
    simp only [List.map_cons, List.mem_cons, not_or] at h
    simp only [Groups.join, if_neg (Ne.symm h.1), ih h.2, List.cons_append]

theorem join_present (gs : Groups) (g : Name) (k : Bool) (n : Name) (h : g ∈ gs.map Prod.fst) (hn : (gs.map Prod.fst).Nodup) :
    gs.join g k n = gs.map fun x => if x.1 = g then (x.1, x.2.1, x.2.2 ++ [n]) else x := by
  induction gs with
  | nil => simp at h
  | cons x gs ih =>
    simp only [List.map_cons, List.nodup_cons] at hn
    by_cases hx : x.1 = g
    · simp only [Groups.join, if_pos hx, List.map_cons]
      have : gs.map (fun x => if x.1 = g then (x.1, x.2.1, x.2.2 ++ [n]) else x) = gs.map id := by
        apply List.map_congr_left
        intro y hy
        rw [if_neg fun he => hn.1 (by rw [hx, ← he]; exact List.mem_map_of_mem (f := Prod.fst) hy)]
        rfl
      rw [this, List.map_id]
    · simp only [List.map_cons, List.mem_cons] at h
      simp only [Groups.join, if_neg hx, List.map_cons, ih (h.resolve_left (Ne.symm hx)) hn.2]

theorem Grouped.key_iff {U : List Stat} {gs : Groups} (h : Grouped U gs) (g : Name) : g ∈ gs.map Prod.fst ↔ members U g ≠ [] := by
  constructor
  · intro hg
    obtain ⟨x, hx, rfl⟩ := List.mem_map.1 hg
    have := (h.mem x).1 hx
    intro he
    rw [he] at this
    exact this.2.1 this.1
  · intro hg
    obtain ⟨s, l, he⟩ := List.exists_cons_of_ne_nil hg
    exact List.mem_map.2 ⟨(g, s.isLocal, (members U g).map Stat.name), (h.mem _).2 ⟨rfl, by simp [he], by simp [he]⟩, rfl⟩

theorem Grouped.snoc {U : List Stat} {gs : Groups} (h : Grouped U gs) (s : Stat) :
    Grouped (U ++ [s]) (gs.join (stem s.name) s.isLocal s.name) := by
  by_cases hk : stem s.name ∈ gs.map Prod.fst
  · rw [join_present _ _ _ _ hk h.keys]
    refine ⟨?_, fun x => ?_⟩
    · rw [List.map_map]
      have : gs.map (Prod.fst ∘ fun x : Name × Bool × List Name =>
          if x.1 = stem s.name then (x.1, x.2.1, x.2.2 ++ [s.name]) else x) = gs.map Prod.fst := by
        apply List.map_congr_left
        intro x _
        simp only [Function.comp_apply]
        split <;> rfl
      rw [this]
      exact h.keys
    · rw [members_snoc, List.mem_map]
      constructor
      · rintro ⟨y, hy, rfl⟩
        have hm := (h.mem y).1 hy
        by_cases hg : y.1 = stem s.name
        · have hne : members U y.1 ≠ [] := by intro he; rw [he] at hm; exact hm.2.1 hm.1
          rw [if_pos hg]
          simp only [if_pos hg.symm, List.map_append, ← hm.1]
          refine ⟨by simp, by simp, ?_⟩
          rw [hm.2.2, List.head?_append_of_ne_nil _ hne]
        · rw [if_neg hg]
          simp only [if_neg (Ne.symm hg), List.append_nil]
          exact hm
      · intro hx
        by_cases hg : x.1 = stem s.name
        · have hne : members U x.1 ≠ [] := by rw [hg]; exact (h.key_iff _).1 hk
          refine ⟨(x.1, x.2.1, (members U x.1).map Stat.name), (h.mem _).2 ⟨rfl, by simpa using hne, ?_⟩, ?_⟩
          · have := hx.2.2
            rw [List.head?_append_of_ne_nil _ hne] at this
            exact this
          · rw [if_pos hg]
            have := hx.1
            simp only [if_pos hg.symm, List.map_append] at this
            obtain ⟨x1, x2, x3⟩ := x
            simp only at this ⊢
            rw [this]; simp
        · simp only [if_neg (Ne.symm hg), List.append_nil] at hx
          exact ⟨x, (h.mem x).2 hx, by rw [if_neg hg]⟩
  · have hnil : members U (stem s.name) = [] := by
      by_contra hne
      exact hk ((h.key_iff _).2 hne)
    rw [join_absent _ _ _ _ hk]
    refine ⟨?_, fun x => ?_⟩
    · rw [List.map_append, List.nodup_append']
      refine ⟨h.keys, by simp, ?_⟩
      intro a ha hb
      simp only [List.map_cons, List.map_nil, List.mem_singleton] at hb
      exact hk (hb ▸ ha)
    · rw [members_snoc, List.mem_append, List.mem_singleton]
      by_cases hg : stem s.name = x.1
      · rw [← hg, hnil]
        simp only [if_true, List.nil_append, List.map_cons, List.map_nil, List.head?_cons, Option.map_some]
        constructor
        · rintro (hx | rfl)
          · exact absurd (hg ▸ List.mem_map_of_mem (f := Prod.fst) hx) hk
          · simp
        · rintro ⟨h1, _, h2⟩
          right
          obtain ⟨x1, x2, x3⟩ := x
          simp only at h1 h2 hg ⊢
          injection h2 with h2
          rw [h1, h2, hg]
      · simp only [if_neg hg, List.append_nil]
        rw [← h.mem x]
        constructor
        · rintro (hx | rfl)
          · exact hx
          · exact absurd rfl hg
        · exact Or.inl

theorem groups_snoc (l : List Stat) (s : Stat) : groupsOf (l ++ [s]) =
    if s.appearances = 0 then (groupsOf l).join (stem s.name) s.isLocal s.name else groupsOf l := by
  simp [groupsOf, List.foldl_append]

theorem grouped (stats : List Stat) : Grouped (stats.filter fun s => decide (s.appearances = 0)) (groupsOf stats) := by
  induction stats using List.reverseRecOn with
  | nil => exact ⟨by simp [groupsOf], fun x => by simp [groupsOf, members]⟩
  | append_singleton l s ih =>
    rw [groups_snoc, List.filter_append]
    by_cases h : s.appearances = 0
    · rw [if_pos h]
      have : [s].filter (fun s => decide (s.appearances = 0)) = [s] := by simp [h]
      rw [this]
      exact ih.snoc s
    · rw [if_neg h]
      have : [s].filter (fun s => decide (s.appearances = 0)) = [] := by simp [h]
      rw [this, List.append_nil]
      exact ih

/-! ## The stem of a name -/

theorem split_plain {c : Char} : ∀ {s : Name}, c ∉ s → splitAt c s = [s]
  | [], _ => rfl
  | x :: s, h => by
    simp only [List.mem_cons, not_or] at h
    simp only [splitAt, if_neg (Ne.symm h.1), split_plain h.2]

theorem split_ne {c : Char} (s : Name) : splitAt c s ≠ [] := by
  cases s with
  | nil => simp [splitAt]
  | cons x s =>
    simp only [splitAt]
    split
    · simp
    · split <;> simp

theorem split_at_sep {c : Char} (v : Name) : ∀ u : Name, splitAt c (u ++ c :: v) = splitAt c u ++ splitAt c v
  | [] => by simp [splitAt]
  | x :: u => by
    simp only [List.cons_append, splitAt]
    by_cases h : x = c
    · simp [h, split_at_sep v u]
    · simp only [if_neg h, split_at_sep v u]
      cases hs : splitAt c u with
      | nil => exact absurd hs (split_ne u)
      | cons q qs => rfl

theorem split_join (c : Char) (u : Name) : (splitAt c u).foldl (fun acc q => acc ++ q ++ [c]) [] = u ++ [c] := by
  have hacc : ∀ (l : List Name) (a : Name), l.foldl (fun acc q => acc ++ q ++ [c]) a = a ++ l.foldl (fun acc q => acc ++ q ++ [c]) [] := by
    intro l
    induction l with
    | nil => simp
    | cons q l ih =>
      intro a
      rw [List.foldl_cons, List.foldl_cons, ih, ih ([] ++ q ++ [c])]
      simp
  induction u with
  | nil => rfl
  | cons x u ih =>
    simp only [splitAt]
    by_cases h : x = c
    · rw [if_pos h, List.foldl_cons, hacc, ih, h]
      rfl
    · rw [if_neg h]
      cases hs : splitAt c u with
      | nil => exact absurd hs (split_ne u)
      | cons q qs =>
        rw [hs, List.foldl_cons, hacc] at ih
        simp only [List.foldl_cons]
        rw [hacc]
        simp only [List.nil_append, List.append_assoc, List.cons_append] at ih ⊢
        rw [ih]

/-- A place where names are declared: the template itself, or what ends with a dot. -/
def Front (pre : Name) : Prop := pre = [] ∨ ∃ q, pre = q ++ ['.']

theorem stem_of {pre n r : Name} (hp : Front pre) (hn : Plain n) (hr : r = [] ∨ ∃ r', r = '[' :: r') (hd : '.' ∉ r) :
    stem (pre ++ n ++ r) = pre ++ n := by
  have hn1 : '.' ∉ n := fun h => by have := List.all_eq_true.1 hn.2 _ h; simp [isSep] at this
  have hn2 : '[' ∉ n := fun h => by have := List.all_eq_true.1 hn.2 _ h; simp [isSep] at this
  have hlast : (splitAt '[' (n ++ r)).head?.getD [] = n := by
    rcases hr with rfl | ⟨r', rfl⟩
    · rw [List.append_nil, split_plain hn2]; rfl
    · rw [split_at_sep, split_plain hn2]; rfl
  have hnr : '.' ∉ n ++ r := by simp [hn1, hd]
  unfold stem
  rcases hp with rfl | ⟨q, rfl⟩
  · simp only [List.nil_append, split_plain hnr, List.dropLast_singleton, List.foldl_nil, List.getLast?_singleton, Option.getD_some, hlast]
  · have : q ++ ['.'] ++ n ++ r = q ++ '.' :: (n ++ r) := by simp
    rw [this, split_at_sep, split_plain hnr]
    simp only [List.dropLast_concat, List.getLast?_concat, Option.getD_some, hlast, split_join]

end Verif.Inspect
