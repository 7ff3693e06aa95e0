import Verif.RoundLemmas

/-! Witness renumbering and the final storage. -/

set_option linter.unusedSectionVars false
set_option linter.unusedSimpArgs false

namespace Verif.Simplification
open Verif.ModArith (Res Fail)
open Verif.Algebra Verif.Linear Verif.Clusters Verif.Props.Algebra

variable {p : Nat}

/-! ### rebuild_witness -/

/-- Signals that keep a witness position. -/
def Keep (deleted forbidden : List Nat) (used : Nat → Bool) (removeUnused : Bool) (x : Nat) : Prop :=
  x ∉ deleted ∧ ¬ (removeUnused = true ∧ x ∉ forbidden ∧ used x = false)

instance (d f : List Nat) (u : Nat → Bool) (r : Bool) (x : Nat) : Decidable (Keep d f u r x) := by
  unfold Keep; infer_instance

/-- Number of kept signals below `x`. -/
def rank (keep : Nat → Prop) [DecidablePred keep] (x : Nat) : Nat := ((List.range x).filter fun y => decide (keep y)).length

theorem rank_succ (keep : Nat → Prop) [DecidablePred keep] (x : Nat) :
    rank keep (x + 1) = rank keep x + if keep x then 1 else 0 := by
  unfold rank
  rw [List.range_succ, List.filter_append, List.length_append]
  by_cases h : keep x <;> simp [h]

theorem rank_le (keep : Nat → Prop) [DecidablePred keep] (x : Nat) : rank keep x ≤ x := by
  unfold rank
  refine le_trans (List.length_filter_le _ _) ?_
  simp

structure RebuildInv (deleted0 forbidden : List Nat) (used : Nat → Bool) (removeUnused : Bool) (n : Nat) (map : BMap Nat)
    (free deleted : List Nat) : Prop where
  sorted : BMap.Sorted map
  map : ∀ x, BMap.get map x = if x < n ∧ Keep deleted0 forbidden used removeUnused x then
    some (rank (Keep deleted0 forbidden used removeUnused) x) else none
  free : free = List.range' (rank (Keep deleted0 forbidden used removeUnused) n)
    (n - rank (Keep deleted0 forbidden used removeUnused) n)
  deleted : ∀ x, x ∈ deleted ↔ x ∈ deleted0 ∨ (x < n ∧ ¬ Keep deleted0 forbidden used removeUnused x)

theorem range'_snoc (r n : Nat) (h : r ≤ n) : List.range' r (n - r) ++ [n] = List.range' r (n + 1 - r) := by
  have : n + 1 - r = (n - r) + 1 := by omega
  rw [this, List.range'_concat]
  congr 2; omega

theorem rebuildLoop_spec (deleted0 forbidden : List Nat) (used : Nat → Bool) (removeUnused : Bool) (left : Nat) :
    ∀ (n : Nat) (map : BMap Nat) (free deleted : List Nat),
    RebuildInv deleted0 forbidden used removeUnused n map free deleted →
    ∃ free', RebuildInv deleted0 forbidden used removeUnused (n + left)
      (rebuildLoop forbidden used removeUnused left n map free deleted).1 free'
      (rebuildLoop forbidden used removeUnused left n map free deleted).2 := by
  induction left with
  | zero => intro n map free deleted h; exact ⟨free, h⟩
  | succ left ih =>
    intro n map free deleted h
    have hle := rank_le (Keep deleted0 forbidden used removeUnused) n
    have hrs := rank_succ (Keep deleted0 forbidden used removeUnused) n
    have hnd : n ∈ deleted ↔ n ∈ deleted0 := by rw [h.deleted]; simp
    have hadd : n + (left + 1) = n + 1 + left := by omega
    -- the signal is dropped
    have drop : ∀ deleted', ¬ Keep deleted0 forbidden used removeUnused n → (∀ x, x ∈ deleted' ↔ x ∈ deleted ∨ x = n) →
        RebuildInv deleted0 forbidden used removeUnused (n + 1) map (free ++ [n]) deleted' := by
      intro deleted' hk hd'
      rw [if_neg hk] at hrs
      refine ⟨h.sorted, fun x => ?_, ?_, fun x => ?_⟩
      · rw [h.map]
        by_cases hx : x = n
        · subst hx; simp [hk]
        · have : x < n ↔ x < n + 1 := by omega
          simp only [this]
      · rw [hrs, Nat.add_zero, h.free, range'_snoc _ _ hle]
      · rw [hd', h.deleted]
        constructor
        · rintro ((h1 | ⟨h1, h2⟩) | rfl)
          · exact Or.inl h1
          · exact Or.inr ⟨by omega, h2⟩
          · exact Or.inr ⟨by omega, hk⟩
        · rintro (h1 | ⟨h1, h2⟩)
          · exact Or.inl (Or.inl h1)
          · by_cases hx : x = n
            · exact Or.inr hx
            · exact Or.inl (Or.inr ⟨by omega, h2⟩)
    rw [hadd]
    unfold rebuildLoop
    split
    · rename_i hc
      have hd : n ∈ deleted := by simpa using hc
      have hk : ¬ Keep deleted0 forbidden used removeUnused n := fun hk => hk.1 (hnd.1 hd)
      exact ih _ _ _ _ (drop deleted hk fun x => ⟨fun hx => Or.inl hx, fun hx => by
        rcases hx with hx | rfl
        · exact hx
        · exact hd⟩)
    · rename_i hc
      have hd : n ∉ deleted := by simpa using hc
      split
      · rename_i hu
        simp only [Bool.and_eq_true, Bool.not_eq_true', List.contains_eq_mem, decide_eq_false_iff_not] at hu
        have hk : ¬ Keep deleted0 forbidden used removeUnused n := fun hk => hk.2 ⟨hu.1.1, hu.1.2, hu.2⟩
        exact ih _ _ _ _ (drop (deleted ++ [n]) hk fun x => by simp)
      · rename_i hu
        have hk : Keep deleted0 forbidden used removeUnused n := by
          refine ⟨fun hx => hd (hnd.2 hx), ?_⟩
          rintro ⟨a, b, c⟩
          apply hu
          simp [a, b, c]
        rw [if_pos hk] at hrs
        -- the signal is kept at position `rank n`
        have kept : ∀ free', free' = List.range' (rank (Keep deleted0 forbidden used removeUnused) n + 1)
              (n - rank (Keep deleted0 forbidden used removeUnused) n) →
            RebuildInv deleted0 forbidden used removeUnused (n + 1)
              (BMap.insert map n (rank (Keep deleted0 forbidden used removeUnused) n)) free' deleted := by
          intro free' hf
          refine ⟨BMap.sorted_insert h.sorted _ _, fun x => ?_, ?_, fun x => ?_⟩
          · rw [BMap.get_insert _ _ _ _ h.sorted]
            by_cases hx : x = n
            · subst hx; simp [hk]
            · rw [if_neg hx, h.map]
              have : x < n ↔ x < n + 1 := by omega
              simp only [this]
          · rw [hrs, hf]; congr 1; omega
          · rw [h.deleted]
            constructor
            · rintro (h1 | ⟨h1, h2⟩)
              · exact Or.inl h1
              · exact Or.inr ⟨by omega, h2⟩
            · rintro (h1 | ⟨h1, h2⟩)
              · exact Or.inl h1
              · by_cases hx : x = n
                · subst hx; exact absurd hk h2
                · exact Or.inr ⟨by omega, h2⟩
        obtain ⟨r, hr⟩ : ∃ r, r = rank (Keep deleted0 forbidden used removeUnused) n := ⟨_, rfl⟩
        rw [← hr] at kept hle
        have hfree := h.free
        rw [← hr] at hfree
        by_cases hz : n - r = 0
        · rw [hz] at hfree
          simp only [List.range'_zero] at hfree
          subst hfree
          have hrn : r = n := by omega
          have := kept [] (by rw [hz]; rfl)
          rw [hrn] at this
          exact ih _ _ _ _ this
        · obtain ⟨m, hm⟩ : ∃ m, n - r = m + 1 := ⟨n - r - 1, by omega⟩
          rw [hm, List.range'_succ] at hfree
          subst hfree
          refine ih _ _ _ _ (kept _ ?_)
          have e2 := range'_snoc (r + 1) n (by omega)
          have e3 : n - (r + 1) = m := by omega
          have e4 : n + 1 - (r + 1) = n - r := by omega
          rw [e3, e4] at e2
          exact e2

theorem rebuildWitness_spec (maxSignal : Nat) (deleted forbidden : List Nat) (used : Nat → Bool) (removeUnused : Bool) :
    BMap.Sorted (rebuildWitness maxSignal deleted forbidden used removeUnused).1 ∧
    (∀ x, BMap.get (rebuildWitness maxSignal deleted forbidden used removeUnused).1 x =
      if x < maxSignal ∧ Keep deleted forbidden used removeUnused x then
        some (rank (Keep deleted forbidden used removeUnused) x) else none) ∧
    ∀ x, x ∈ (rebuildWitness maxSignal deleted forbidden used removeUnused).2 ↔
      x ∈ deleted ∨ (x < maxSignal ∧ ¬ Keep deleted forbidden used removeUnused x) := by
  obtain ⟨free, h⟩ := rebuildLoop_spec deleted forbidden used removeUnused maxSignal 0 [] [] deleted
    ⟨BMap.sorted_nil, by intro x; simp [BMap.get], by simp [rank], by simp⟩
  rw [Nat.zero_add] at h
  exact ⟨h.sorted, h.map, h.deleted⟩

/-! ### The final storage -/

theorem addAll_spec (cs : List C) : ∀ (storage : List C) (map : SigMap), MapOK map storage →
    (addAll cs (storage, map)).1 = storage ++ cs ∧ MapOK (addAll cs (storage, map)).2 (storage ++ cs) := by
  induction cs with
  | nil => intro storage map h; simpa [addAll] using h
  | cons c cs ih =>
    intro storage map h
    obtain ⟨h1, h2⟩ := has_pushFold (signalSet c) storage.length map h.sorted
    have := ih (storage ++ [c]) ((signalSet c).foldl (fun m s => pushId m s storage.length) map) ⟨h1, ?_, ?_⟩
    · unfold addAll
      simpa using this
    · intro id d hd x hx ho
      rw [h2]
      by_cases hid : id < storage.length
      · rw [List.getElem?_append_left hid] at hd
        exact Or.inl (h.complete id d hd x hx ho)
      · rw [List.getElem?_append_right (by omega)] at hd
        have hlt := (List.getElem?_eq_some_iff.1 hd).1
        simp only [List.length_singleton] at hlt
        have hz : id - storage.length = 0 := by omega
        rw [hz] at hd
        simp only [List.getElem?_cons_zero, Option.some.injEq] at hd
        subst hd
        exact Or.inr ⟨(mem_signalSet c x).2 ⟨hx, ho⟩, by omega⟩
    · intro x id hh
      rw [h2] at hh
      rw [List.length_append, List.length_singleton]
      rcases hh with hh | ⟨_, rfl⟩
      · have := h.ids x id hh; omega
      · omega

/-- The simplifier's output. -/
structure Final (p : Nat) (smp : Input) (out : Output) (subs : List S) (del : List Nat) (use : Nat → Bool) : Prop where
  inv : Inv p (smp.Holds) (smp.ConstsConsistent p) smp.forbidden smp.maxSignal out.storage subs
  clean : ∀ c ∈ out.storage, Clean p c ∧ c.isEmpty = false
  deleted : ∀ x, x ∈ del ↔ ∃ s ∈ subs, s.frm = x
  used : ∀ c ∈ out.storage, ∀ x, x ≠ 0 → c.Occurs x → use x = true
  sorted : BMap.Sorted out.map
  map : ∀ x, BMap.get out.map x = if x < smp.maxSignal ∧ Keep del smp.forbidden use true x then
    some (rank (Keep del smp.forbidden use true) x) else none

/-- Public signals are the first ones and are protected. -/
def Input.PublicProtected (smp : Input) : Prop :=
  ∀ x, x ≤ smp.noPublicOutputs + smp.noPublicInputs → x ∈ smp.forbidden

theorem deletedInputs_le (smp : Input) (hpub : smp.PublicProtected) (deleted : List Nat) (hd : ∀ x ∈ deleted, x ∉ smp.forbidden) :
    deletedInputs smp deleted ≤ smp.noPrivateInputs := by
  unfold deletedInputs
  have hn : (deleted.dedup.filter fun s => decide (smp.noPublicOutputs + 1 ≤ s ∧
      s ≤ smp.noPublicOutputs + smp.noPublicInputs + smp.noPrivateInputs)).Nodup := (List.nodup_dedup _).filter _
  have hsub : (deleted.dedup.filter fun s => decide (smp.noPublicOutputs + 1 ≤ s ∧
      s ≤ smp.noPublicOutputs + smp.noPublicInputs + smp.noPrivateInputs)) ⊆
      List.range' (smp.noPublicOutputs + smp.noPublicInputs + 1) smp.noPrivateInputs := by
    intro x hx
    rw [List.mem_filter, List.mem_dedup] at hx
    obtain ⟨h1, h2⟩ := hx
    simp only [decide_eq_true_eq] at h2
    have : ¬ x ≤ smp.noPublicOutputs + smp.noPublicInputs := fun h => hd x h1 (hpub x h)
    rw [List.mem_range'_1]
    omega
  have := (hn.subperm hsub).length_le
  simpa using this

theorem conclude_spec (hp : p.Prime) (smp : Input) (hi : InputOK p smp) (hpub : smp.PublicProtected) (st : RoundState)
    (subs : List S) (h : RInv p (smp.Holds) (smp.ConstsConsistent p) smp.forbidden smp.maxSignal st subs) :
    ∃ out used, conclude smp st = .ok out ∧ Final p smp out subs st.deleted used ∧
      ∃ deleted, (∀ x, x ∈ deleted ↔ x ∈ st.deleted ∨ (x < smp.maxSignal ∧ ¬ Keep st.deleted smp.forbidden used true x)) ∧
        out.privateInputs = smp.noPrivateInputs - deletedInputs smp deleted ∧ deletedInputs smp deleted ≤ smp.noPrivateInputs := by
  obtain ⟨lconst, k1, k2⟩ := mapM_spec (fun c : C => c.fix smp.field)
    (fun c c' => Clean p c' ∧ (∀ ρ : Nat → ZMod p, ρ 0 = 1 → (c'.Holds ρ ↔ c.Holds ρ)) ∧ ∀ x, c'.Occurs x → x = 0 ∨ c.Occurs x)
    st.lconst (by
      intro c hc
      have hg := h.lconst c hc
      obtain ⟨c', q1, q2, q3, q4, _⟩ := C15_fix hp.pos c hg.wa hg.wb hg.wc hg.ca hg.cb hg.cc
      exact ⟨c', by rw [hi.field]; exact q1, q2, q3, q4⟩)
  obtain ⟨a1, a2⟩ := addAll_spec st.linear st.storage st.map h.map
  have ha : addAll st.linear (st.storage, st.map) = (st.storage ++ st.linear, (addAll st.linear (st.storage, st.map)).2) := by
    rw [← a1]
  obtain ⟨b1, b2⟩ := addAll_spec lconst (st.storage ++ st.linear) (addAll st.linear (st.storage, st.map)).2 a2
  rw [← ha] at b1 b2
  obtain ⟨full, hfull⟩ : ∃ l, l = st.storage ++ st.linear ++ lconst := ⟨_, rfl⟩
  rw [← hfull] at b1 b2
  obtain ⟨map, hmap⟩ : ∃ m, m = (addAll lconst (addAll st.linear (st.storage, st.map))).2 := ⟨_, rfl⟩
  rw [← hmap] at b2
  obtain ⟨w1, w2, w3⟩ := rebuildWitness_spec smp.maxSignal st.deleted smp.forbidden (fun s => (BMap.get map s).isSome) true
  have hdel : ∀ x ∈ (rebuildWitness smp.maxSignal st.deleted smp.forbidden (fun s => (BMap.get map s).isSome) true).2, x ∉ smp.forbidden := by
    intro x hx
    rcases (w3 x).1 hx with h1 | ⟨_, h1⟩
    · obtain ⟨s, hs, rfl⟩ := (h.deleted x).1 h1
      exact (h.inv.froms s hs).2.1
    · intro hf
      by_cases hxd : x ∈ st.deleted
      · obtain ⟨s, hs, rfl⟩ := (h.deleted x).1 hxd
        exact (h.inv.froms s hs).2.1 hf
      · exact h1 ⟨hxd, fun hh => hh.2.1 hf⟩
  have hle := deletedInputs_le smp hpub _ hdel
  -- correspondence between the final storage and the live constraints
  have hocc : ∀ c ∈ full, ∀ x, c.Occurs x → x = 0 ∨ ∃ d ∈ st.lconst ++ (st.linear ++ st.storage), d.Occurs x := by
    intro c hc x hx
    rw [hfull] at hc
    simp only [List.mem_append] at hc
    rcases hc with (hc | hc) | hc
    · exact Or.inr ⟨c, by simp [hc], hx⟩
    · exact Or.inr ⟨c, by simp [hc], hx⟩
    · obtain ⟨d, hd, _, _, h3⟩ := forall₂_exists_left k2 c hc
      rcases h3 x hx with h | h
      · exact Or.inl h
      · exact Or.inr ⟨d, by simp [hd], h⟩
  have hcl : ∀ c ∈ full, Clean p c := by
    intro c hc
    rw [hfull] at hc
    simp only [List.mem_append] at hc
    rcases hc with (hc | hc) | hc
    · exact h.storage c hc
    · exact LinClean.clean (h.linear c hc)
    · obtain ⟨d, hd, h1, _⟩ := forall₂_exists_left k2 c hc
      exact h1
  have heq : ∀ ρ : Nat → ZMod p, ρ 0 = 1 → ((∀ c ∈ full.filter (fun c => !c.isEmpty), c.Holds ρ) ↔
      ∀ c ∈ st.lconst ++ (st.linear ++ st.storage), c.Holds ρ) := by
    intro ρ hρ
    have e1 : (∀ c ∈ full.filter (fun c => !c.isEmpty), c.Holds ρ) ↔ ∀ c ∈ full, c.Holds ρ := by
      constructor
      · intro hh c hc
        cases he : c.isEmpty with
        | true => exact empty_holds c he ρ
        | false => exact hh c (List.mem_filter.2 ⟨hc, by simp [he]⟩)
      · intro hh c hc; exact hh c (List.mem_filter.1 hc).1
    have e2 := forall₂_holds (ρ := ρ) k2 fun c c' hr => hr.2.1 ρ hρ
    rw [e1, hfull]
    simp only [List.forall_mem_append]
    rw [e2]; tauto
  refine ⟨⟨full.filter (fun c => !c.isEmpty),
    (rebuildWitness smp.maxSignal st.deleted smp.forbidden (fun s => (BMap.get map s).isSome) true).1,
    smp.noPrivateInputs - deletedInputs smp
      (rebuildWitness smp.maxSignal st.deleted smp.forbidden (fun s => (BMap.get map s).isSome) true).2⟩,
    fun s => (BMap.get map s).isSome, ?_, ⟨⟨?_, ?_, h.inv.tri, h.inv.self, h.inv.froms, ?_, ?_⟩, ?_, h.deleted, ?_, w1, w2⟩, ?_⟩
  · have hpair : addAll lconst (addAll st.linear (st.storage, st.map)) = (full, map) := by rw [← b1, hmap]
    unfold conclude
    simp only [k1, ok_bind, hpair, Nat.not_lt.2 hle, if_false]
  · intro ρ hρ ho
    obtain ⟨h1, h2⟩ := h.inv.fwd ρ hρ ho
    exact ⟨(heq ρ hρ).2 h1, h2⟩
  · intro hsat ρ hρ h1 h2
    exact h.inv.bwd hsat ρ hρ ((heq ρ hρ).1 h1) h2
  · intro s hs c hc hx
    rcases hocc c (List.mem_filter.1 hc).1 _ hx with h' | ⟨d, hd, h'⟩
    · exact (h.inv.froms s hs).1 h'
    · exact h.inv.gone s hs d hd h'
  · intro c hc x hx hx0
    rcases hocc c (List.mem_filter.1 hc).1 _ hx with h' | ⟨d, hd, h'⟩
    · exact absurd h' hx0
    · exact h.inv.bounded d hd x h' hx0
  · intro c hc
    obtain ⟨h1, h2⟩ := List.mem_filter.1 hc
    exact ⟨hcl c h1, by simpa using h2⟩
  · intro c hc x hx ho
    obtain ⟨j, hj, rfl⟩ := List.getElem_of_mem (List.mem_filter.1 hc).1
    obtain ⟨l, hl, _⟩ := b2.complete j _ (List.getElem?_eq_getElem hj) x hx ho
    simp [hl]
  · exact ⟨_, w3, rfl, hle⟩

theorem simplification_spec (hp : p.Prime) (sched : Sched) (hs : sched.Valid) (fuel : List C → Nat)
    (hfuel : ∀ cs, enough cs ≤ fuel cs) (smp : Input) (hi : InputOK p smp) (hpub : smp.PublicProtected) :
    ∃ out subs deleted used, simplification sched fuel smp = .ok out ∧ Final p smp out subs deleted used ∧
      ∃ all, (∀ x, x ∈ all ↔ x ∈ deleted ∨ (x < smp.maxSignal ∧ ¬ Keep deleted smp.forbidden used true x)) ∧
        out.privateInputs = smp.noPrivateInputs - deletedInputs smp all ∧ deletedInputs smp all ≤ smp.noPrivateInputs := by
  obtain ⟨st, subs, h1, h2⟩ := simplified_spec hp sched hs fuel hfuel smp hi
  obtain ⟨out, used, h3, h4, h5⟩ := conclude_spec hp smp hi hpub st subs h2
  exact ⟨out, subs, st.deleted, used, by unfold simplification; rw [h1, ok_bind, h3], h4, h5⟩

end Verif.Simplification
