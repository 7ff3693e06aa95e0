import Verif.NonoverlapLemmas

/-! Invariants of heuristic 3, and the steps shared by both heuristics. -/

set_option linter.unusedSectionVars false

namespace Verif.Linear
open Verif.ModArith (Res Fail)
open Verif.Algebra Verif.Props.Algebra

variable {p : Nat}

/-- Replacing a constraint by its merge with a stored entry. -/
theorem merge_step (hp : p.Prime) {forb : List Nat} {work k : C} {e : Nat × (Int × S)} (he : GoodEntry p forb e)
    {coL : Int} {sL : S} (hwork : ∀ ρ : Nat → ZMod p, work.Holds ρ ↔ (coL : ZMod p) * ρ e.1 = ev ρ sL.rhs)
    (hk : ∀ ρ : Nat → ZMod p, ρ 0 = 1 →
        (k.Holds ρ ↔ (e.2.1 : ZMod p) * ev ρ sL.rhs = (coL : ZMod p) * ev ρ e.2.2.rhs))
    (ρ : Nat → ZMod p) (hρ : ρ 0 = 1) (hent : EntryHolds ρ e) : k.Holds ρ ↔ work.Holds ρ := by
  have : Fact p.Prime := ⟨hp⟩
  rw [hk ρ hρ, hwork]
  unfold EntryHolds at hent
  rw [← hent]
  constructor
  · intro h
    have h2 : (e.2.1 : ZMod p) * ((coL : ZMod p) * ρ e.1) = (e.2.1 : ZMod p) * ev ρ sL.rhs := by
      rw [h]; ring
    exact mul_left_cancel₀ he.co h2
  · intro h; rw [← h]; ring

/-- Signals mentioned by a holder and a list of constraints. -/
def Mentions (subs : SHN) (cs : List C) (x : Nat) : Prop :=
  (∃ e ∈ subs, x = e.1 ∨ x ∈ e.2.2.rhs.keys) ∨ ∃ c ∈ cs, x ∈ c.c.keys

theorem takeSignal3_spec (forb keys : List Nat) :
    (takeSignal3 forb keys = none → ∀ x ∈ keys, canTake forb x = false) ∧
    (∀ v, takeSignal3 forb keys = some v → v ∈ keys ∧ canTake forb v = true ∧ ∀ x ∈ keys, canTake forb x = true → x ≤ v) := by
  have gen : ∀ (keys : List Nat) (r : Option Nat),
      let q := keys.foldl (fun ret k =>
        if canTake forb k then
          match ret with
          | none => some k
          | some v => some (max k v)
        else ret) r
      (q = none → r = none ∧ ∀ x ∈ keys, canTake forb x = false) ∧
      (∀ v, q = some v → (r = some v ∨ (v ∈ keys ∧ canTake forb v = true)) ∧ (∀ w, r = some w → w ≤ v) ∧
        ∀ x ∈ keys, canTake forb x = true → x ≤ v) := by
    intro keys
    induction keys with
    | nil =>
      intro r
      simp only [List.foldl_nil]
      refine ⟨fun h => ⟨h, by simp⟩, fun v hv => ⟨Or.inl hv, fun w hw => ?_, by simp⟩⟩
      rw [hv] at hw; injection hw with hw; omega
    | cons k keys ih =>
      intro r
      rw [List.foldl_cons]
      by_cases hk : canTake forb k = true
      · cases r with
        | none =>
          simp only [hk, if_true]
          obtain ⟨h1, h2⟩ := ih (some k)
          refine ⟨fun h => absurd (h1 h).1 (by simp), fun v hv => ?_⟩
          obtain ⟨a, b, c⟩ := h2 v hv
          refine ⟨Or.inr ?_, by simp, ?_⟩
          · rcases a with a | a
            · injection a with a; subst a; exact ⟨by simp, hk⟩
            · exact ⟨by simp [a.1], a.2⟩
          · intro x hx hc
            rcases List.mem_cons.1 hx with rfl | hx
            · exact b x rfl
            · exact c x hx hc
        | some w =>
          simp only [hk, if_true]
          obtain ⟨h1, h2⟩ := ih (some (max k w))
          refine ⟨fun h => absurd (h1 h).1 (by simp), fun v hv => ?_⟩
          obtain ⟨a, b, c⟩ := h2 v hv
          have bm := b _ rfl
          refine ⟨?_, ?_, ?_⟩
          · rcases a with a | a
            · injection a with a
              rcases Nat.le_total k w with hkw | hkw
              · left; rw [← a, Nat.max_eq_right hkw]
              · right; rw [← a, Nat.max_eq_left hkw]; exact ⟨by simp, hk⟩
            · exact Or.inr ⟨by simp [a.1], a.2⟩
          · intro w' hw'; injection hw' with hw'; subst hw'; omega
          · intro x hx hc
            rcases List.mem_cons.1 hx with rfl | hx
            · omega
            · exact c x hx hc
      · have hk' : canTake forb k = false := by simpa using hk
        simp only [hk', Bool.false_eq_true, if_false]
        obtain ⟨h1, h2⟩ := ih r
        refine ⟨fun h => ⟨(h1 h).1, fun x hx => ?_⟩, fun v hv => ?_⟩
        · rcases List.mem_cons.1 hx with rfl | hx
          · exact hk'
          · exact (h1 h).2 x hx
        · obtain ⟨a, b, c⟩ := h2 v hv
          refine ⟨?_, b, ?_⟩
          · rcases a with a | a
            · exact Or.inl a
            · exact Or.inr ⟨by simp [a.1], a.2⟩
          · intro x hx hc
            rcases List.mem_cons.1 hx with rfl | hx
            · rw [hk'] at hc; cases hc
            · exact c x hx hc
  obtain ⟨h1, h2⟩ := gen keys none
  refine ⟨fun h => (h1 h).2, fun v hv => ?_⟩
  obtain ⟨a, _, c⟩ := h2 v hv
  rcases a with a | a
  · cases a
  · exact ⟨a.1, a.2, c⟩

/-- Invariant of heuristic 3. -/
structure Inv3 (p : Nat) (forb : List Nat) (st : St3) : Prop where
  sorted : BMap.Sorted st.subs
  good : ∀ e ∈ st.subs, GoodEntry p forb e
  below : ∀ e ∈ st.subs, ∀ x ∈ e.2.2.rhs.keys, canTake forb x = true → x < e.1
  clean : ∀ c ∈ st.lconst, LinClean p c
  rest : ∀ c ∈ st.lconst, ∀ x ∈ c.c.keys, canTake forb x = false

/-- What the state says about assignments. -/
def Sat (ρ : Nat → ZMod p) (subs : SHN) (cs : List C) : Prop :=
  (∀ e ∈ subs, EntryHolds ρ e) ∧ ∀ c ∈ cs, c.Holds ρ

theorem sat_insert {subs : SHN} (hs : BMap.Sorted subs) {s : Nat} (hnew : BMap.get subs s = none) (v : Int × S)
    (cs : List C) (ρ : Nat → ZMod p) :
    Sat ρ (BMap.insert subs s v) cs ↔ Sat ρ subs cs ∧ EntryHolds ρ (s, v) := by
  unfold Sat
  have hne : ∀ e ∈ subs, e.1 ≠ s := by
    intro e he heq
    have := (BMap.get_eq_none_iff subs s).1 hnew
    exact this (heq ▸ List.mem_map_of_mem he)
  simp only [BMap.mem_insert_iff hs]
  constructor
  · rintro ⟨h1, h2⟩
    exact ⟨⟨fun e he => h1 e (Or.inr ⟨he, hne e he⟩), h2⟩, h1 _ (Or.inl rfl)⟩
  · rintro ⟨⟨h1, h2⟩, h3⟩
    refine ⟨fun e he => ?_, h2⟩
    rcases he with rfl | ⟨he, _⟩
    · exact h3
    · exact h1 e he

theorem treat3_spec (hp : p.Prime) (ord : HashOrder) (hord : ord.Valid) (forb : List Nat) (h0 : 0 ∈ forb) :
    ∀ (fuel : Nat) (st : St3) (work : C), Inv3 p forb st → LinClean p work → 0 < fuel →
      (∀ x ∈ work.c.keys, canTake forb x = true → x + 1 < fuel) →
      ∃ st', treat3 ord forb p fuel st work = .ok st' ∧ Inv3 p forb st' ∧
        (∀ ρ : Nat → ZMod p, ρ 0 = 1 → (Sat ρ st'.subs st'.lconst ↔ Sat ρ st.subs st.lconst ∧ work.Holds ρ)) ∧
        (∀ x, Mentions st'.subs st'.lconst x → x = 0 ∨ Mentions st.subs st.lconst x ∨ x ∈ work.c.keys) := by
  have hct0 : canTake forb 0 = false := by simp [canTake, h0]
  intro fuel
  induction fuel with
  | zero => intro _ _ _ _ h; omega
  | succ fuel ih =>
    intro st work hinv hw _ hb
    unfold treat3
    by_cases hemp : work.isEmpty = true
    · rw [if_pos hemp]
      refine ⟨st, rfl, hinv, fun ρ _ => ?_, fun x hx => Or.inr (Or.inl hx)⟩
      have : work.Holds ρ := by rw [hw.holds, hw.isEmpty_iff.1 hemp, ev_nil]
      simp [this]
    · rw [if_neg hemp]
      obtain ⟨t1, t2⟩ := takeSignal3_spec forb (ord st.step work.c)
      have hperm := hord st.step work.c
      cases htake : takeSignal3 forb (ord st.step work.c) with
      | none =>
        simp only []
        refine ⟨_, rfl, ⟨hinv.sorted, hinv.good, hinv.below, ?_, ?_⟩, ?_, ?_⟩
        · intro c hc
          simp only [List.mem_append, List.mem_singleton] at hc
          rcases hc with hc | rfl
          · exact hinv.clean c hc
          · exact hw
        · intro c hc x hx
          simp only [List.mem_append, List.mem_singleton] at hc
          rcases hc with hc | rfl
          · exact hinv.rest c hc x hx
          · exact t1 htake x (hperm.mem_iff.2 hx)
        · intro ρ _
          simp only [Sat, List.mem_append, List.mem_singleton]
          constructor
          · rintro ⟨h1, h2⟩
            exact ⟨⟨h1, fun c hc => h2 c (Or.inl hc)⟩, h2 work (Or.inr rfl)⟩
          · rintro ⟨⟨h1, h2⟩, h3⟩
            refine ⟨h1, fun c hc => ?_⟩
            rcases hc with hc | rfl
            · exact h2 c hc
            · exact h3
        · rintro x (h | ⟨c, hc, hx⟩)
          · exact Or.inr (Or.inl (Or.inl h))
          · simp only [List.mem_append, List.mem_singleton] at hc
            rcases hc with hc | rfl
            · exact Or.inr (Or.inl (Or.inr ⟨c, hc, hx⟩))
            · exact Or.inr (Or.inr hx)
      | some out =>
        obtain ⟨hout, hcan, hmax⟩ := t2 out htake
        have hout' : out ∈ work.c.keys := hperm.mem_iff.1 hout
        have hne : out ≠ 0 := by rintro rfl; rw [hct0] at hcan; cases hcan
        obtain ⟨co, t, h1, h2, h3, h4, h5, _, h6⟩ := clearNN_spec hp.pos hw hout' hne
        simp only [h1, ok_bind, h2]
        have hlt : ∀ x ∈ t.rhs.keys, canTake forb x = true → x < out := by
          intro x hx hc
          rcases (h4 x).1 hx with rfl | ⟨hxo, hxk⟩
          · rw [hct0] at hc; cases hc
          · have := hmax x (hperm.mem_iff.2 hxk) hc; omega
        have hself : out ∉ t.rhs.keys := fun hx => by
          have := hlt out hx hcan; omega
        have hge : GoodEntry p forb (out, (co, t)) := ⟨h2, h5, h3, hself, hcan⟩
        cases hget : st.subs.get out with
        | none =>
          simp only []
          refine ⟨_, rfl, ⟨BMap.sorted_insert hinv.sorted _ _, ?_, ?_, hinv.clean, hinv.rest⟩, ?_, ?_⟩
          · intro e he
            rcases (BMap.mem_insert_iff hinv.sorted _ _ _).1 he with rfl | ⟨he, _⟩
            · exact hge
            · exact hinv.good e he
          · intro e he
            rcases (BMap.mem_insert_iff hinv.sorted _ _ _).1 he with rfl | ⟨he, _⟩
            · exact hlt
            · exact hinv.below e he
          · intro ρ _
            rw [sat_insert hinv.sorted hget, h6 ρ]
            rfl
          · rintro x (⟨e, he, hx⟩ | h)
            · rcases (BMap.mem_insert_iff hinv.sorted _ _ _).1 he with rfl | ⟨he, _⟩
              · rcases hx with hx | hx
                · exact Or.inr (Or.inr (hx ▸ hout'))
                · rcases (h4 x).1 hx with h | ⟨_, h⟩
                  · exact Or.inl h
                  · exact Or.inr (Or.inr h)
              · exact Or.inr (Or.inl (Or.inl ⟨e, he, hx⟩))
            · exact Or.inr (Or.inl (Or.inr h))
        | some c =>
          obtain ⟨coR, sR⟩ := c
          have hmemR := BMap.get_mem hget
          have hgR := hinv.good _ hmemR
          obtain ⟨k, hk1, hk2, hk3, hk4⟩ := merge_spec hp.pos co coR t sR h3 hgR.rhs
          simp only [hk1, ok_bind]
          have hbR := hinv.below _ hmemR
          have hfo := hb out hout' hcan
          obtain ⟨st', r1, r2, r3, r4⟩ := ih ⟨st.subs, st.lconst, st.step + 1⟩ k
            ⟨hinv.sorted, hinv.good, hinv.below, hinv.clean, hinv.rest⟩ hk2 (by omega) (by
              intro x hx hc
              rcases hk3 x hx with rfl | hx | hx
              · rw [hct0] at hc; cases hc
              · have := hlt x hx hc; omega
              · have := hbR x hx hc; simp only at this; omega)
          refine ⟨st', r1, r2, ?_, ?_⟩
          · intro ρ hρ
            rw [r3 ρ hρ]
            constructor
            · rintro ⟨hs, hkh⟩
              exact ⟨hs, (merge_step hp hgR h6 hk4 ρ hρ (hs.1 _ hmemR)).1 hkh⟩
            · rintro ⟨hs, hkh⟩
              exact ⟨hs, (merge_step hp hgR h6 hk4 ρ hρ (hs.1 _ hmemR)).2 hkh⟩
          · intro x hx
            rcases r4 x hx with h | h | h
            · exact Or.inl h
            · exact Or.inr (Or.inl h)
            · rcases hk3 x h with h | h | h
              · exact Or.inl h
              · rcases (h4 x).1 h with h | ⟨_, h⟩
                · exact Or.inl h
                · exact Or.inr (Or.inr h)
              · exact Or.inr (Or.inl (Or.inl ⟨_, hmemR, Or.inr h⟩))

theorem treat3_mono (ord : HashOrder) (forb : List Nat) (f : Int) (n : Nat) :
    ∀ (st : St3) (work : C) (r : St3), treat3 ord forb f n st work = .ok r →
      treat3 ord forb f (n + 1) st work = .ok r := by
  induction n with
  | zero => intro st work r h; simp [treat3] at h
  | succ n ih =>
    intro st work r h
    unfold treat3 at h ⊢
    split
    · rename_i hc; rw [if_pos hc] at h; exact h
    · rename_i hc
      rw [if_neg hc] at h
      cases htake : takeSignal3 forb (ord st.step work.c) with
      | none => rw [htake] at h; exact h
      | some out =>
        rw [htake] at h
        simp only [] at h ⊢
        cases hcl : work.clearSignalFromLinearNN out f with
        | error e => rw [hcl] at h; simp [error_bind] at h
        | ok v =>
          obtain ⟨co, t⟩ := v
          rw [hcl] at h
          simp only [ok_bind] at h ⊢
          cases hg : st.subs.get t.frm with
          | none => rw [hg] at h; exact h
          | some c =>
            obtain ⟨coR, sR⟩ := c
            rw [hg] at h
            simp only [] at h ⊢
            cases hm : merge co t coR sR f with
            | error e => rw [hm] at h; simp [error_bind] at h
            | ok k =>
              rw [hm] at h
              simp only [ok_bind] at h ⊢
              exact ih _ _ _ h

theorem foldlM_treat3_mono (ord : HashOrder) (forb : List Nat) (f : Int) (n : Nat) (cs : List C) :
    ∀ (st r : St3), cs.foldlM (treat3 ord forb f n) st = .ok r → cs.foldlM (treat3 ord forb f (n + 1)) st = .ok r := by
  induction cs with
  | nil => intro st r h; exact h
  | cons c cs ih =>
    intro st r h
    rw [List.foldlM_cons] at h ⊢
    obtain ⟨s1, h1, h2⟩ := (bind_ok_iff _ _ _).1 h
    rw [treat3_mono _ _ _ _ _ _ _ h1, ok_bind]
    exact ih _ _ h2

theorem process3_spec (hp : p.Prime) (ord : HashOrder) (hord : ord.Valid) (forb : List Nat) (h0 : 0 ∈ forb)
    (cs : List C) (hcs : ∀ c ∈ cs, LinClean p c) (fuel : Nat) (hf : 0 < fuel)
    (hb : ∀ c ∈ cs, ∀ x ∈ c.c.keys, canTake forb x = true → x + 1 < fuel) :
    ∃ st, process3 ord forb p fuel cs = .ok st ∧ Inv3 p forb st ∧
      (∀ ρ : Nat → ZMod p, ρ 0 = 1 → (Sat ρ st.subs st.lconst ↔ ∀ c ∈ cs, c.Holds ρ)) ∧
      (∀ x, Mentions st.subs st.lconst x → x = 0 ∨ ∃ c ∈ cs, x ∈ c.c.keys) := by
  have gen : ∀ (cs : List C) (st : St3), (∀ c ∈ cs, LinClean p c) →
      (∀ c ∈ cs, ∀ x ∈ c.c.keys, canTake forb x = true → x + 1 < fuel) → Inv3 p forb st →
      ∃ st', cs.foldlM (treat3 ord forb p fuel) st = .ok st' ∧ Inv3 p forb st' ∧
      (∀ ρ : Nat → ZMod p, ρ 0 = 1 → (Sat ρ st'.subs st'.lconst ↔ Sat ρ st.subs st.lconst ∧ ∀ c ∈ cs, c.Holds ρ)) ∧
      (∀ x, Mentions st'.subs st'.lconst x → x = 0 ∨ Mentions st.subs st.lconst x ∨ ∃ c ∈ cs, x ∈ c.c.keys) := by
    intro cs
    induction cs with
    | nil => intro st _ _ hi; exact ⟨st, rfl, hi, fun ρ _ => by simp, fun x hx => Or.inr (Or.inl hx)⟩
    | cons c cs ih =>
      intro st hcs hb hi
      obtain ⟨s1, a1, a2, a3, a4⟩ := treat3_spec hp ord hord forb h0 fuel st c hi (hcs c (by simp)) hf (hb c (by simp))
      obtain ⟨s2, b1, b2, b3, b4⟩ := ih s1 (fun c hc => hcs c (by simp [hc])) (fun c hc => hb c (by simp [hc])) a2
      refine ⟨s2, by rw [List.foldlM_cons, a1, ok_bind, b1], b2, fun ρ hρ => ?_, fun x hx => ?_⟩
      · rw [b3 ρ hρ, a3 ρ hρ]
        simp only [List.mem_cons, forall_eq_or_imp]
        tauto
      · rcases b4 x hx with h | h | ⟨c', hc', h⟩
        · exact Or.inl h
        · rcases a4 x h with h | h | h
          · exact Or.inl h
          · exact Or.inr (Or.inl h)
          · exact Or.inr (Or.inr ⟨c, by simp, h⟩)
        · exact Or.inr (Or.inr ⟨c', by simp [hc'], h⟩)
  obtain ⟨st, h1, h2, h3, h4⟩ := gen cs.reverse ⟨[], [], 0⟩ (fun c hc => hcs c (List.mem_reverse.1 hc))
    (fun c hc => hb c (List.mem_reverse.1 hc))
    ⟨BMap.sorted_nil, by simp, by simp, by simp, by simp⟩
  refine ⟨st, h1, h2, fun ρ hρ => ?_, fun x hx => ?_⟩
  · rw [h3 ρ hρ]; simp [Sat]
  · rcases h4 x hx with h | h | ⟨c, hc, h⟩
    · exact Or.inl h
    · rcases h with ⟨e, he, _⟩ | ⟨c, hc, _⟩
      · simp at he
      · simp at hc
    · exact Or.inr ⟨c, List.mem_reverse.1 hc, h⟩

end Verif.Linear
