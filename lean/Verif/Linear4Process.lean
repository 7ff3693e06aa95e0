import Verif.Linear4Lemmas

/-! Heuristic 4: counting, unique signals, the whole process. -/

set_option linter.unusedSectionVars false
set_option linter.unusedSimpArgs false

namespace Verif.Linear
open Verif.ModArith (Res Fail)
open Verif.Algebra Verif.Props.Algebra

variable {p : Nat}

/-- One constraint of the counting loop. -/
def countKeys (forb : List Nat) (pos : Nat) (acc : BMap Nat × BMap Nat) (ks : List Nat) : BMap Nat × BMap Nat :=
  ks.foldl (fun acc k =>
      if canTake forb k then
        match acc.1.get k with
        | some prev => (acc.1.insert k (prev + 1), acc.2)
        | none => (acc.1.insert k 1, acc.2.insert k pos)
      else acc) acc

theorem countKeys_spec (forb : List Nat) (pos : Nat) (ks : List Nat) : ∀ (acc : BMap Nat × BMap Nat), ks.Nodup →
    BMap.Sorted acc.1 → BMap.Sorted acc.2 →
    let r := countKeys forb pos acc ks
    BMap.Sorted r.1 ∧ BMap.Sorted r.2 ∧
    (∀ k, BMap.get r.1 k = if k ∈ ks ∧ canTake forb k = true then some ((BMap.get acc.1 k).getD 0 + 1) else BMap.get acc.1 k) ∧
    (∀ k, BMap.get r.2 k =
      if k ∈ ks ∧ canTake forb k = true ∧ BMap.get acc.1 k = none then some pos else BMap.get acc.2 k) := by
  induction ks with
  | nil => intro acc _ h1 h2; simp [countKeys, h1, h2]
  | cons k0 ks ih =>
    intro acc hnd h1 h2
    obtain ⟨hk0, hnd'⟩ := List.nodup_cons.1 hnd
    have hstep : countKeys forb pos acc (k0 :: ks) = countKeys forb pos (
      if canTake forb k0 then
        match acc.1.get k0 with
        | some prev => (acc.1.insert k0 (prev + 1), acc.2)
        | none => (acc.1.insert k0 1, acc.2.insert k0 pos)
      else acc) ks := rfl
    simp only [hstep]
    by_cases hc : canTake forb k0 = true
    · simp only [hc, if_true]
      cases hg : BMap.get acc.1 k0 with
      | some prev =>
        obtain ⟨a, b, c, d⟩ := ih (acc.1.insert k0 (prev + 1), acc.2) hnd' (BMap.sorted_insert h1 _ _) h2
        refine ⟨a, b, fun k => ?_, fun k => ?_⟩
        · rw [c k, BMap.get_insert _ _ _ _ h1]
          by_cases hk : k = k0
          · subst hk; simp [hk0, hc, hg]
          · simp [hk]
        · rw [d k]
          simp only [BMap.get_insert _ _ _ _ h1]
          by_cases hk : k = k0
          · subst hk; simp [hk0, hg]
          · simp [hk]
      | none =>
        obtain ⟨a, b, c, d⟩ := ih (acc.1.insert k0 1, acc.2.insert k0 pos) hnd' (BMap.sorted_insert h1 _ _)
          (BMap.sorted_insert h2 _ _)
        refine ⟨a, b, fun k => ?_, fun k => ?_⟩
        · rw [c k, BMap.get_insert _ _ _ _ h1]
          by_cases hk : k = k0
          · subst hk; simp [hk0, hc, hg]
          · simp [hk]
        · rw [d k]
          simp only [BMap.get_insert _ _ _ _ h1, BMap.get_insert _ _ _ _ h2]
          by_cases hk : k = k0
          · subst hk; simp [hk0, hg, hc]
          · simp [hk]
    · have hc' : canTake forb k0 = false := by simpa using hc
      simp only [hc', Bool.false_eq_true, if_false]
      obtain ⟨a, b, c, d⟩ := ih acc hnd' h1 h2
      refine ⟨a, b, fun k => ?_, fun k => ?_⟩
      · rw [c k]
        by_cases hk : k = k0
        · subst hk; simp [hk0, hc']
        · simp [hk]
      · rw [d k]
        by_cases hk : k = k0
        · subst hk; simp [hk0, hc']
        · simp [hk]

/-- Invariant of the counting loop after the prefix `done` of `all`. -/
structure CountInv (forb : List Nat) (all done : List C) (acc : BMap Nat × BMap Nat) : Prop where
  s1 : BMap.Sorted acc.1
  s2 : BMap.Sorted acc.2
  occ : ∀ k, BMap.get acc.1 k = if canTake forb k = true ∧ 0 < cnt done k then some (cnt done k) else none
  rep : ∀ k i, BMap.get acc.2 k = some i → ∃ c, all[i]? = some c ∧ k ∈ c.c.keys
  both : ∀ k, (BMap.get acc.1 k).isSome → (BMap.get acc.2 k).isSome

theorem cnt_append (v w : List C) (k : Nat) : cnt (v ++ w) k = cnt v k + cnt w k := by
  simp [cnt, List.countP_append]

theorem countOccurrences_spec (forb : List Nat) (all : List C) (cs : List C) : ∀ (done : List C) (acc : BMap Nat × BMap Nat),
    all = done ++ cs → (∀ c ∈ cs, c.c.WF) → CountInv forb all done acc →
    CountInv forb all all (countOccurrences forb cs done.length acc) := by
  induction cs with
  | nil =>
    intro done acc he _ h
    have : all = done := by rw [he, List.append_nil]
    rw [← this] at h; exact h
  | cons c cs ih =>
    intro done acc he hw h
    have hw0 : c.c.WF := hw c (by simp)
    have hstep : countOccurrences forb (c :: cs) done.length acc =
      countOccurrences forb cs (done ++ [c]).length (countKeys forb done.length acc c.c.keys) := by
      rw [List.length_append]; rfl
    rw [hstep]
    refine ih (done ++ [c]) _ (by rw [he]; simp) (fun c hc => hw c (by simp [hc])) ?_
    obtain ⟨a, b, e, f⟩ := countKeys_spec forb done.length c.c.keys acc hw0 h.s1 h.s2
    have hcnt : ∀ k, cnt (done ++ [c]) k = cnt done k + if k ∈ c.c.keys then 1 else 0 := by
      intro k; rw [cnt_append, cnt_cons]; simp [cnt]
    refine ⟨a, b, fun k => ?_, fun k i hi => ?_, fun k hk => ?_⟩
    · rw [e k, h.occ k, hcnt k]
      by_cases hk : k ∈ c.c.keys <;> by_cases ht : canTake forb k = true
      · by_cases hz : 0 < cnt done k
        · simp [hk, ht, hz]
        · have : cnt done k = 0 := by omega
          simp [hk, ht, this]
      · simp [ht]
      · simp [hk]
      · simp [ht]
    · rw [f k] at hi
      split at hi
      · rename_i hcond
        injection hi with hi; subst hi
        refine ⟨c, ?_, hcond.1⟩
        rw [he]; simp
      · exact h.rep k i hi
    · rw [e k] at hk
      rw [f k]
      split
      · rfl
      · rename_i hcond
        refine h.both k ?_
        split at hk
        · rename_i hcond'
          by_contra hn
          exact hcond ⟨hcond'.1, hcond'.2, by simpa using hn⟩
        · exact hk

theorem infoNew_spec (forb : List Nat) (cs : List C) (hw : ∀ c ∈ cs, c.c.WF) :
    ∃ occ uniques, infoNew forb cs = .ok (occ, uniques) ∧ OccInv forb occ cs ∧
      (∀ c ∈ cs, ∀ x ∈ c.c.keys, canTake forb x = true → x ∈ BMap.keys occ) ∧
      ∀ e ∈ uniques, cnt cs e.1 ≤ 1 ∧ canTake forb e.1 = true ∧ ∃ c, cs[e.2]? = some c ∧ e.1 ∈ c.c.keys := by
  have hC := countOccurrences_spec forb cs cs [] ([], []) rfl hw
    ⟨BMap.sorted_nil, BMap.sorted_nil, by simp [BMap.get, cnt], by simp [BMap.get], by simp [BMap.get]⟩
  simp only [List.length_nil] at hC
  unfold infoNew
  generalize countOccurrences forb cs 0 ([], []) = r at hC
  obtain ⟨occ, rep⟩ := r
  have hfold : ∀ (l : BMap Nat) (u : BMap Nat), (∀ e ∈ l, e ∈ occ) → BMap.Sorted u →
      (∀ e ∈ u, cnt cs e.1 ≤ 1 ∧ canTake forb e.1 = true ∧ ∃ c, cs[e.2]? = some c ∧ e.1 ∈ c.c.keys) →
      ∃ u', l.foldlM (fun uniques e =>
        if e.2 = 1 then
          match BMap.get rep e.1 with
          | none => .error .panic
          | some pos => .ok (BMap.insert uniques e.1 pos)
        else .ok uniques) u = (.ok u' : Res (BMap Nat)) ∧ BMap.Sorted u' ∧
      (∀ e ∈ u', cnt cs e.1 ≤ 1 ∧ canTake forb e.1 = true ∧ ∃ c, cs[e.2]? = some c ∧ e.1 ∈ c.c.keys) := by
    intro l
    induction l with
    | nil => intro u _ hs hu; exact ⟨u, rfl, hs, hu⟩
    | cons e l ih =>
      intro u hl hs hu
      rw [List.foldlM_cons]
      obtain ⟨k, n⟩ := e
      have hmem := hl (k, n) (by simp)
      have hg := BMap.get_of_mem hC.s1 hmem
      by_cases hn : n = 1
      · simp only [hn, if_true]
        obtain ⟨pos, hpos⟩ := Option.isSome_iff_exists.1 (hC.both k (by rw [hg]; rfl))
        simp only at hpos
        simp only [hpos, ok_bind]
        refine ih _ (fun e he => hl e (by simp [he])) (BMap.sorted_insert hs _ _) ?_
        intro e he
        rcases (BMap.mem_insert_iff hs _ _ _).1 he with rfl | ⟨he, _⟩
        · have ho := hC.occ k
          rw [hg] at ho
          split at ho
          · rename_i hcond
            injection ho with ho
            exact ⟨by simp only; omega, hcond.1, hC.rep k pos hpos⟩
          · cases ho
        · exact hu e he
      · simp only [hn, if_false, ok_bind]
        exact ih u (fun e he => hl e (by simp [he])) hs hu
  obtain ⟨u', h1, _, h3⟩ := hfold occ [] (fun e he => he) BMap.sorted_nil (by simp)
  refine ⟨occ, u', ?_, ⟨hC.s1, ?_, ?_⟩, ?_, h3⟩
  · have h1' := h1
    simp only [] at h1 ⊢
    exact (congrArg (fun q : Res (BMap Nat) => q >>= fun u => .ok (occ, u)) h1)
  · intro k hk
    have := (BMap.get_isSome_iff _ _).2 hk
    rw [show BMap.get occ k = _ from hC.occ k] at this
    split at this
    · rename_i hcond; exact hcond.1
    · cases this
  · intro k n hn
    rw [show BMap.get occ k = _ from hC.occ k] at hn
    split at hn
    · injection hn with hn; exact hn.symm
    · cases hn
  · intro c hc x hx ht
    rw [← BMap.get_isSome_iff, show BMap.get occ x = _ from hC.occ x, if_pos]
    · rfl
    · refine ⟨ht, ?_⟩
      unfold cnt
      rw [List.countP_pos_iff]
      exact ⟨c, hc, by simpa using hx⟩

/-! ### Unique signals -/

theorem set_perm {α : Type} (l : List α) (i : Nat) (a b : α) (h : l[i]? = some a) :
    ∃ rest, l.Perm (a :: rest) ∧ (l.set i b).Perm (b :: rest) := by
  induction l generalizing i with
  | nil => simp at h
  | cons x l ih =>
    cases i with
    | zero =>
      simp only [List.getElem?_cons_zero, Option.some.injEq] at h
      subst h
      exact ⟨l, List.Perm.refl _, List.Perm.refl _⟩
    | succ i =>
      simp only [List.getElem?_cons_succ] at h
      obtain ⟨rest, h1, h2⟩ := ih i h
      refine ⟨x :: rest, (h1.cons x).trans (List.Perm.swap _ _ _), ?_⟩
      rw [List.set_cons_succ]
      exact (h2.cons x).trans (List.Perm.swap _ _ _)

/-- Facts about the constraints still to be processed. -/
structure VecInv (p : Nat) (forb sigs : List Nat) (st : St4) (vec : List C) : Prop where
  occ : OccInv forb st.occ vec
  clean : ∀ c ∈ vec, LinClean p c
  known : ∀ c ∈ vec, ∀ x ∈ c.c.keys, canTake forb x = true → x ∈ st.order ∨ x ∈ BMap.keys st.occ
  vsig : ∀ c ∈ vec, ∀ x ∈ c.c.keys, x ∈ sigs ∨ x = 0
  subsigs : ∀ e ∈ st.subs, ∀ x ∈ e.2.2.rhs.keys, x ∈ sigs ∨ x = 0

theorem occInv_perm {forb : List Nat} {occ : BMap Nat} {v w : List C} (h : v.Perm w) (ho : OccInv forb occ v) :
    OccInv forb occ w := ⟨ho.sorted, ho.take, fun k n hn => (ho.count k n hn).trans (cnt_perm h k)⟩

theorem VecInv.perm {forb sigs : List Nat} {st : St4} {v w : List C} (h : v.Perm w) (hv : VecInv p forb sigs st v) :
    VecInv p forb sigs st w :=
  ⟨occInv_perm h hv.occ, fun c hc => hv.clean c (h.mem_iff.2 hc), fun c hc => hv.known c (h.mem_iff.2 hc),
    fun c hc => hv.vsig c (h.mem_iff.2 hc), hv.subsigs⟩

theorem linClean_empty : LinClean p (Constraint.empty : C) :=
  ⟨rfl, rfl, CMap.wf_nil, by intro e he; simp [Constraint.empty] at he, by intro e he; simp [Constraint.empty] at he⟩

theorem uniques4_spec (hp : p.Prime) (forb sigs : List Nat) (h0 : 0 ∈ forb) (u : BMap Nat) :
    ∀ (vec : List C) (st : St4), Inv4 p forb sigs st → VecInv p forb sigs st vec →
      (∀ c ∈ vec, ∀ x ∈ c.c.keys, x ∉ st.order) →
      (∀ e ∈ u, cnt vec e.1 ≤ 1 ∧ canTake forb e.1 = true ∧ ∃ c, vec[e.2]? = some c ∧ (c.c = [] ∨ e.1 ∈ c.c.keys)) →
      ∃ vec' st', uniques4 forb p u vec st = .ok (vec', st') ∧ Inv4 p forb sigs st' ∧ VecInv p forb sigs st' vec' ∧
        (∀ ρ : Nat → ZMod p, ρ 0 = 1 → ((Sat ρ st'.subs st'.lconst ∧ ∀ c ∈ vec', c.Holds ρ) ↔
          (Sat ρ st.subs st.lconst ∧ ∀ c ∈ vec, c.Holds ρ))) ∧
        (∀ x, (Mentions st'.subs st'.lconst x ∨ ∃ c ∈ vec', x ∈ c.c.keys) →
          x = 0 ∨ (Mentions st.subs st.lconst x ∨ ∃ c ∈ vec, x ∈ c.c.keys)) := by
  have hct0 : canTake forb 0 = false := by simp [canTake, h0]
  induction u with
  | nil => intro vec st h1 h2 _ _; exact ⟨vec, st, rfl, h1, h2, fun _ _ => Iff.rfl, fun x hx => Or.inr hx⟩
  | cons e u ih =>
    intro vec st hinv hvec hfresh hu
    obtain ⟨signal, index⟩ := e
    obtain ⟨hcnt, htake, actual, hact, hsig⟩ := hu (signal, index) (by simp)
    simp only at hcnt htake hact hsig
    unfold uniques4
    simp only [hact]
    have hactmem : actual ∈ vec := List.mem_of_getElem? hact
    have hcl := hvec.clean actual hactmem
    by_cases hemp : actual.isEmpty = true
    · rw [if_pos hemp]
      exact ih vec st hinv hvec hfresh (fun e he => hu e (by simp [he]))
    · rw [if_neg hemp]
      have hne : actual.c ≠ [] := fun h => hemp (hcl.isEmpty_iff.2 h)
      have hmem : signal ∈ actual.c.keys := hsig.resolve_left hne
      obtain ⟨rest, hp1, hp2⟩ := set_perm vec index actual Constraint.empty hact
      have hsne : signal ≠ 0 := by rintro rfl; rw [hct0] at htake; cases htake
      have hcnteq : ∀ k, cnt vec k = cnt (vec.set index Constraint.empty) k + if k ∈ actual.c.keys then 1 else 0 := by
        intro k
        rw [cnt_perm hp1, cnt_perm hp2, cnt_cons, cnt_cons]
        simp [Constraint.empty]
      obtain ⟨occ', o1, o2, o3⟩ := removeConstraint_spec hvec.occ hcl.wf hcnteq
      rw [o1, ok_bind]
      obtain ⟨co, t, h1, h2, h3, h4, h5, _, h6⟩ := clearNN_spec hp.pos hcl hmem hsne
      have hself : signal ∉ t.rhs.keys := fun hx => by
        rcases (h4 signal).1 hx with h | ⟨h, _⟩
        · exact hsne h
        · exact h rfl
      have hge : GoodEntry p forb (signal, (co, t)) := ⟨h2, h5, h3, hself, htake⟩
      have hnew : signal ∉ st.order := hfresh actual hactmem signal hmem
      have hinv1 : Inv4 p forb sigs { st with occ := occ' } :=
        ⟨hinv.sorted, hinv.good, hinv.keysEq, hinv.nodup, hinv.ordered,
          fun e he x hx hc => (hinv.known e he x hx hc).imp id (o3 x).2, hinv.bounded, hinv.clean, hinv.rest⟩
      have hinv2 := inv4_insert (work := actual) hct0 hinv1 hnew ((hvec.vsig actual hactmem signal hmem).resolve_right hsne)
        hge (fun x hx => (h4 x).1 hx) (fun x hx _ => hfresh actual hactmem x hx)
        (fun x hx hc => (hvec.known actual hactmem x hx hc).imp id (o3 x).2) st.step
      have htreat : treatUnique4 p { st with occ := occ' } actual signal = .ok ⟨BMap.insert st.subs signal (co, t),
          st.lconst, signal :: st.order, BMap.remove occ' signal, st.step⟩ := by
        simp only [treatUnique4, h1, ok_bind, h2]
      rw [htreat, ok_bind]
      have hget : BMap.get st.subs signal = none :=
        (BMap.get_eq_none_iff _ _).2 fun h => hnew ((hinv.keysEq signal).2 h)
      have hsetmem : ∀ c ∈ vec.set index Constraint.empty, c = Constraint.empty ∨ c ∈ rest := by
        intro c hc
        rcases List.mem_cons.1 (hp2.mem_iff.1 hc) with h | h
        · exact Or.inl h
        · exact Or.inr h
      have hrestvec : ∀ c ∈ rest, c ∈ vec := fun c hc => hp1.mem_iff.2 (by simp [hc])
      have hsignot : ∀ c ∈ rest, signal ∉ c.c.keys := by
        intro c hc hs
        have h7 := cnt_perm hp1 signal
        rw [cnt_cons, if_pos hmem] at h7
        have : 0 < cnt rest signal := by
          unfold cnt; rw [List.countP_pos_iff]; exact ⟨c, hc, by simpa using hs⟩
        omega
      obtain ⟨vec', st', r1, r2, r3, r4, r5⟩ := ih (vec.set index Constraint.empty) _ hinv2
        (by
          refine ⟨occInv_remove o2 signal, ?_, ?_, ?_, ?_⟩
          · intro c hc
            rcases hsetmem c hc with rfl | h
            · exact linClean_empty
            · exact hvec.clean c (hrestvec c h)
          · intro c hc x hx ht
            rcases hsetmem c hc with rfl | h
            · simp [Constraint.empty] at hx
            · simp only [List.mem_cons, BMap.mem_keys_remove]
              by_cases hxs : x = signal
              · exact Or.inl (Or.inl hxs)
              · rcases hvec.known c (hrestvec c h) x hx ht with h | h
                · exact Or.inl (Or.inr h)
                · exact Or.inr ⟨(o3 x).2 h, hxs⟩
          · intro c hc x hx
            rcases hsetmem c hc with rfl | h
            · simp [Constraint.empty] at hx
            · exact hvec.vsig c (hrestvec c h) x hx
          · intro e he x hx
            rcases (BMap.mem_insert_iff hinv.sorted _ _ _).1 he with rfl | ⟨he, _⟩
            · rcases (h4 x).1 hx with h | ⟨_, h⟩
              · exact Or.inr h
              · exact hvec.vsig actual hactmem x h
            · exact hvec.subsigs e he x hx)
        (by
          intro c hc x hx
          rcases hsetmem c hc with rfl | h
          · simp [Constraint.empty] at hx
          · simp only [List.mem_cons, not_or]
            exact ⟨fun hxs => hsignot c h (hxs ▸ hx), hfresh c (hrestvec c h) x hx⟩)
        (by
          intro e he
          obtain ⟨a, b, c, hc, hd⟩ := hu e (by simp [he])
          refine ⟨?_, b, ?_⟩
          · have := hcnteq e.1; omega
          · by_cases hie : index = e.2
            · refine ⟨Constraint.empty, ?_, Or.inl rfl⟩
              rw [← hie, List.getElem?_set_self']
              rw [hact]; rfl
            · exact ⟨c, by rw [List.getElem?_set_ne hie]; exact hc, hd⟩)
      refine ⟨vec', st', r1, r2, r3, ?_, ?_⟩
      · intro ρ hρ
        rw [r4 ρ hρ, sat_insert hinv.sorted hget]
        have hE : EntryHolds ρ (signal, (co, t)) ↔ actual.Holds ρ := (h6 ρ).symm
        rw [hE]
        have hempty : (Constraint.empty : C).Holds ρ := by
          simp [Constraint.Holds, Constraint.empty, ev_nil]
        constructor
        · rintro ⟨⟨a, b⟩, c⟩
          refine ⟨a, fun k hk => ?_⟩
          rcases List.mem_cons.1 (hp1.mem_iff.1 hk) with rfl | h
          · exact b
          · exact c k (hp2.mem_iff.2 (by simp [h]))
        · rintro ⟨a, b⟩
          refine ⟨⟨a, b actual hactmem⟩, fun k hk => ?_⟩
          rcases hsetmem k hk with rfl | h
          · exact hempty
          · exact b k (hrestvec k h)
      · intro x hx
        rcases r5 x hx with h | h | ⟨c, hc, h⟩
        · exact Or.inl h
        · rcases h with ⟨e, he, h⟩ | h
          · rcases (BMap.mem_insert_iff hinv.sorted _ _ _).1 he with rfl | ⟨he, _⟩
            · rcases h with h | h
              · exact Or.inr (Or.inr ⟨actual, hactmem, h ▸ hmem⟩)
              · rcases (h4 x).1 h with h | ⟨_, h⟩
                · exact Or.inl h
                · exact Or.inr (Or.inr ⟨actual, hactmem, h⟩)
            · exact Or.inr (Or.inl (Or.inl ⟨e, he, h⟩))
          · exact Or.inr (Or.inl (Or.inr h))
        · rcases hsetmem c hc with rfl | hc
          · simp [Constraint.empty] at h
          · exact Or.inr (Or.inr ⟨c, hrestvec c hc, h⟩)

theorem rest4_spec (hp : p.Prime) (ord : HashOrder) (hord : ord.Valid) (forb sigs : List Nat) (h0 : 0 ∈ forb)
    (fuel : Nat) (hf : 2 ^ sigs.length ≤ fuel) (vec : List C) :
    ∀ (st : St4), Inv4 p forb sigs st → VecInv p forb sigs st vec → (∀ x, Mentions st.subs st.lconst x → x ∈ sigs ∨ x = 0) →
      ∃ st', rest4 ord forb p fuel vec st = .ok st' ∧ Inv4 p forb sigs st' ∧
        (∀ ρ : Nat → ZMod p, ρ 0 = 1 → (Sat ρ st'.subs st'.lconst ↔ (Sat ρ st.subs st.lconst ∧ ∀ c ∈ vec, c.Holds ρ))) ∧
        (∀ x, Mentions st'.subs st'.lconst x → x = 0 ∨ (Mentions st.subs st.lconst x ∨ ∃ c ∈ vec, x ∈ c.c.keys)) := by
  induction vec with
  | nil => intro st h1 _ _; exact ⟨st, rfl, h1, fun ρ _ => by simp, fun x hx => Or.inr (Or.inl hx)⟩
  | cons actual vec ih =>
    intro st hinv hvec hsigs
    have hcl := hvec.clean actual (by simp)
    obtain ⟨occ', o1, o2, o3⟩ := removeConstraint_spec (vec' := vec) hvec.occ hcl.wf (fun k => cnt_cons actual vec k)
    unfold rest4
    rw [o1, ok_bind]
    have hinv1 : Inv4 p forb sigs { st with occ := occ' } :=
        ⟨hinv.sorted, hinv.good, hinv.keysEq, hinv.nodup, hinv.ordered,
          fun e he x hx hc => (hinv.known e he x hx hc).imp id (o3 x).2, hinv.bounded, hinv.clean, hinv.rest⟩
    have hlen : st.order.length ≤ sigs.length := hinv.nodup.subperm (fun x hx => hinv.bounded x hx) |>.length_le
    have hw : weight actual.c.keys st.order < fuel :=
      (weight_lt_pow _ _).trans_le ((Nat.pow_le_pow_right (by decide) hlen).trans hf)
    obtain ⟨s1, a1, a2, a3, a4, a5, a6⟩ := treat4_spec hp ord hord forb sigs h0 vec fuel { st with occ := occ' } actual
      hinv1 o2 hcl (fun x hx hc => (hvec.known actual (by simp) x hx hc).imp id (o3 x).2)
      (hvec.vsig actual (by simp)) hvec.subsigs hw
    rw [a1, ok_bind]
    have hsigs1 : ∀ x, Mentions s1.subs s1.lconst x → x ∈ sigs ∨ x = 0 := by
      intro x hx
      rcases a6 x hx with h | h | h
      · exact Or.inr h
      · exact hsigs x h
      · exact hvec.vsig actual (by simp) x h
    obtain ⟨s2, b1, b2, b3, b4⟩ := ih s1 a2
      ⟨a3, fun c hc => hvec.clean c (by simp [hc]),
        fun c hc x hx ht => a4 x ((hvec.known c (by simp [hc]) x hx ht).imp id (o3 x).2),
        fun c hc => hvec.vsig c (by simp [hc]),
        fun e he x hx => hsigs1 x (Or.inl ⟨e, he, Or.inr hx⟩)⟩ hsigs1
    refine ⟨s2, b1, b2, fun ρ hρ => ?_, fun x hx => ?_⟩
    · rw [b3 ρ hρ, a5 ρ hρ]
      simp only [List.mem_cons, forall_eq_or_imp]
      tauto
    · rcases b4 x hx with h | h | ⟨c, hc, h⟩
      · exact Or.inl h
      · rcases a6 x h with h | h | h
        · exact Or.inl h
        · exact Or.inr (Or.inl h)
        · exact Or.inr (Or.inr ⟨actual, by simp, h⟩)
      · exact Or.inr (Or.inr ⟨c, by simp [hc], h⟩)

/-- All signals of a list of constraints. -/
def allSignals (cs : List C) : List Nat := cs.flatMap fun c => c.c.keys

theorem process4_spec (hp : p.Prime) (ord : HashOrder) (hord : ord.Valid) (forb : List Nat) (h0 : 0 ∈ forb)
    (cs : List C) (hcs : ∀ c ∈ cs, LinClean p c) (fuel : Nat) (hf : 2 ^ (allSignals cs).length ≤ fuel) :
    ∃ st, process4 ord forb p fuel cs = .ok st ∧ Inv4 p forb (allSignals cs) st ∧
      (∀ ρ : Nat → ZMod p, ρ 0 = 1 → (Sat ρ st.subs st.lconst ↔ ∀ c ∈ cs, c.Holds ρ)) ∧
      (∀ x, Mentions st.subs st.lconst x → x = 0 ∨ ∃ c ∈ cs, x ∈ c.c.keys) := by
  obtain ⟨occ, uniques, h1, h2, h3, h4⟩ := infoNew_spec forb cs (fun c hc => (hcs c hc).wf)
  have hsig : ∀ c ∈ cs, ∀ x ∈ c.c.keys, x ∈ allSignals cs := fun c hc x hx => List.mem_flatMap.2 ⟨c, hc, hx⟩
  obtain ⟨vec', st', r1, r2, r3, r4, r5⟩ := uniques4_spec hp forb (allSignals cs) h0 uniques cs ⟨[], [], [], occ, 0⟩
    ⟨BMap.sorted_nil, by simp, by simp, by simp, by simp, by simp, by simp, by simp, by simp⟩
    ⟨h2, hcs, fun c hc x hx ht => Or.inr (h3 c hc x hx ht), fun c hc x hx => Or.inl (hsig c hc x hx), by simp⟩
    (by simp)
    (fun e he => by
      obtain ⟨a, b, c, hc, hd⟩ := h4 e he
      exact ⟨a, b, c, hc, Or.inr hd⟩)
  have nomention : ∀ x, ¬ Mentions ([] : SHN) ([] : List C) x := by
    intro x hx; rcases hx with ⟨e, he, _⟩ | ⟨c, hc, _⟩
    · simp at he
    · simp at hc
  have hm1 : ∀ x, (Mentions st'.subs st'.lconst x ∨ ∃ c ∈ vec', x ∈ c.c.keys) → x = 0 ∨ ∃ c ∈ cs, x ∈ c.c.keys := by
    intro x hx
    rcases r5 x hx with h | h | h
    · exact Or.inl h
    · exact absurd h (nomention x)
    · exact Or.inr h
  obtain ⟨s2, b1, b2, b3, b4⟩ := rest4_spec hp ord hord forb (allSignals cs) h0 fuel hf vec'.reverse st' r2
    (r3.perm (List.reverse_perm _).symm) (fun x hx => by
      rcases hm1 x (Or.inl hx) with h | ⟨c, hc, h⟩
      · exact Or.inr h
      · exact Or.inl (hsig c hc x h))
  refine ⟨s2, ?_, b2, fun ρ hρ => ?_, fun x hx => ?_⟩
  · simp only [process4, h1, ok_bind, r1, b1]
  · rw [b3 ρ hρ]
    simp only [List.mem_reverse]
    rw [r4 ρ hρ]
    simp [Sat]
  · rcases b4 x hx with h | h | ⟨c, hc, h⟩
    · exact Or.inl h
    · exact hm1 x (Or.inl h)
    · exact hm1 x (Or.inr ⟨c, List.mem_reverse.1 hc, h⟩)

/-! ### More fuel does not change the result -/

theorem treat4_mono (ord : HashOrder) (forb : List Nat) (f : Int) (n : Nat) :
    ∀ (st : St4) (work : C) (r : St4), treat4 ord forb f n st work = .ok r →
      treat4 ord forb f (n + 1) st work = .ok r := by
  induction n with
  | zero => intro st work r h; simp [treat4] at h
  | succ n ih =>
    intro st work r h
    unfold treat4 at h ⊢
    split
    · rename_i hc; rw [if_pos hc] at h; exact h
    · rename_i hc
      rw [if_neg hc] at h
      cases htake : takeSignal4 forb st.order st.occ (ord st.step work.c) none none with
      | error e => rw [htake] at h; simp [error_bind] at h
      | ok q =>
        rw [htake] at h
        simp only [ok_bind] at h ⊢
        cases q with
        | none => exact h
        | some out =>
          simp only [] at h ⊢
          cases hcl : work.clearSignalFromLinearNN out f with
          | error e => rw [hcl] at h; simp [error_bind] at h
          | ok v =>
            obtain ⟨co, t⟩ := v
            rw [hcl] at h
            simp only [ok_bind] at h ⊢
            cases hg : st.subs.get t.frm with
            | none => rw [hg] at h; exact h
            | some c =>
              obtain ⟨coR, sR⟩ := c
              rw [hg] at h
              simp only [] at h ⊢
              cases hm : merge co t coR sR f with
              | error e => rw [hm] at h; simp [error_bind] at h
              | ok k =>
                rw [hm] at h
                simp only [ok_bind] at h ⊢
                exact ih _ _ _ h

theorem rest4_mono (ord : HashOrder) (forb : List Nat) (f : Int) (n : Nat) (cs : List C) :
    ∀ (st r : St4), rest4 ord forb f n cs st = .ok r → rest4 ord forb f (n + 1) cs st = .ok r := by
  induction cs with
  | nil => intro st r h; exact h
  | cons c cs ih =>
    intro st r h
    unfold rest4 at h ⊢
    obtain ⟨o, h1, h2⟩ := (bind_ok_iff _ _ _).1 h
    obtain ⟨s1, h3, h4⟩ := (bind_ok_iff _ _ _).1 h2
    rw [h1, ok_bind, treat4_mono _ _ _ _ _ _ _ h3, ok_bind]
    exact ih _ _ h4

/-! ### Assembling the result -/

theorem inOrder_spec (order : List Nat) : ∀ (tree : SH), BMap.Sorted tree → order.Nodup →
    (∀ s ∈ order, s ∈ BMap.keys tree) →
    ∃ L, inOrder tree order = .ok L ∧ L.map Prod.fst = order ∧ ∀ e ∈ L, e ∈ tree := by
  induction order with
  | nil => intro tree _ _ _; exact ⟨[], rfl, rfl, by simp⟩
  | cons s order ih =>
    intro tree hs hnd hk
    obtain ⟨hs0, hnd'⟩ := List.nodup_cons.1 hnd
    obtain ⟨sub, hsub⟩ := Option.isSome_iff_exists.1 ((BMap.get_isSome_iff _ _).2 (hk s (by simp)))
    obtain ⟨L, h1, h2, h3⟩ := ih (BMap.remove tree s) (BMap.sorted_remove hs s) hnd' (by
      intro x hx
      rw [BMap.mem_keys_remove]
      exact ⟨hk x (by simp [hx]), by rintro rfl; exact hs0 hx⟩)
    refine ⟨(s, sub) :: L, by simp [inOrder, hsub, h1, ok_bind], by simp [h2], ?_⟩
    intro e he
    rcases List.mem_cons.1 he with rfl | he
    · exact BMap.get_mem hsub
    · exact (BMap.mem_remove.1 (h3 e he)).1

end Verif.Linear
