import Verif.Linear3Lemmas
import Mathlib.Data.List.Count

/-! Invariants of heuristic 4. -/

set_option linter.unusedSectionVars false
set_option linter.unusedSimpArgs false

namespace Verif.Linear
open Verif.ModArith (Res Fail)
open Verif.Algebra Verif.Props.Algebra

variable {p : Nat}

/-! ### Occurrence counts -/

/-- Number of constraints in which `k` occurs. -/
def cnt (vec : List C) (k : Nat) : Nat := vec.countP fun c => decide (k ∈ c.c.keys)

theorem cnt_cons (c : C) (vec : List C) (k : Nat) : cnt (c :: vec) k = cnt vec k + if k ∈ c.c.keys then 1 else 0 := by
  simp [cnt, List.countP_cons]

theorem cnt_perm {v w : List C} (h : v.Perm w) (k : Nat) : cnt v k = cnt w k := h.countP_eq _

/-- Fold of `remove_constraint` over a list of distinct keys. -/
theorem removeKeys_spec (forb : List Nat) (ks : List Nat) : ∀ occ : BMap Nat, BMap.Sorted occ → ks.Nodup →
    (∀ k ∈ ks, ∀ n, BMap.get occ k = some n → 0 < n) →
    ∃ occ', ks.foldlM (fun occ k =>
      if canTake forb k then
        match BMap.get occ k with
        | some n => if n = 0 then .error .panic else .ok (BMap.insert occ k (n - 1))
        | none => .ok occ
      else .ok occ) occ = (.ok occ' : Res (BMap Nat)) ∧ BMap.Sorted occ' ∧
      ∀ k, BMap.get occ' k = (BMap.get occ k).map fun n => if k ∈ ks ∧ canTake forb k = true then n - 1 else n := by
  induction ks with
  | nil => intro occ hs _ _; exact ⟨occ, rfl, hs, fun k => by simp⟩
  | cons k0 ks ih =>
    intro occ hs hnd hpos
    obtain ⟨hk0, hnd'⟩ := List.nodup_cons.1 hnd
    rw [List.foldlM_cons]
    by_cases hc : canTake forb k0 = true
    · cases hg : BMap.get occ k0 with
      | none =>
        obtain ⟨o, h1, h2, h3⟩ := ih occ hs hnd' (fun k hk => hpos k (by simp [hk]))
        refine ⟨o, ?_, h2, fun k => ?_⟩
        · simp only [hc, if_true]
          exact h1
        · rw [h3 k]
          by_cases hk : k = k0
          · subst hk; simp [hg]
          · simp [hk]
      | some n =>
        have hn := hpos k0 (by simp) n hg
        have hs' := BMap.sorted_insert hs k0 (n - 1)
        obtain ⟨o, h1, h2, h3⟩ := ih (BMap.insert occ k0 (n - 1)) hs' hnd' (by
          intro k hk m hm
          rw [BMap.get_insert _ _ _ _ hs, if_neg (by rintro rfl; exact hk0 hk)] at hm
          exact hpos k (by simp [hk]) m hm)
        refine ⟨o, ?_, h2, fun k => ?_⟩
        · simp only [hc, if_true]
          rw [if_neg (by omega), ok_bind]
          exact h1
        · rw [h3 k, BMap.get_insert _ _ _ _ hs]
          by_cases hk : k = k0
          · subst hk; simp [hg, hk0, hc]
          · simp [hk]
    · obtain ⟨o, h1, h2, h3⟩ := ih occ hs hnd' (fun k hk => hpos k (by simp [hk]))
      have hc' : canTake forb k0 = false := by simpa using hc
      refine ⟨o, ?_, h2, fun k => ?_⟩
      · simp only [hc', Bool.false_eq_true, if_false]
        exact h1
      · rw [h3 k]
        by_cases hk : k = k0
        · subst hk; simp [hc']
        · simp [hk]

/-- Invariant linking the counters to the constraints still to be processed. -/
structure OccInv (forb : List Nat) (occ : BMap Nat) (vec : List C) : Prop where
  sorted : BMap.Sorted occ
  take : ∀ k ∈ BMap.keys occ, canTake forb k = true
  count : ∀ k n, BMap.get occ k = some n → n = cnt vec k

theorem removeConstraint_spec {forb : List Nat} {occ : BMap Nat} {c : C} {vec vec' : List C}
    (h : OccInv forb occ vec) (hw : c.c.WF) (hcnt : ∀ k, cnt vec k = cnt vec' k + if k ∈ c.c.keys then 1 else 0) :
    ∃ occ', removeConstraint forb occ c = .ok occ' ∧ OccInv forb occ' vec' ∧
      ∀ k, k ∈ BMap.keys occ' ↔ k ∈ BMap.keys occ := by
  obtain ⟨occ', h1, h2, h3⟩ := removeKeys_spec forb c.c.keys occ h.sorted hw (by
    intro k hk n hn
    have := h.count k n hn
    rw [hcnt k, if_pos hk] at this; omega)
  have hk : ∀ k, k ∈ BMap.keys occ' ↔ k ∈ BMap.keys occ := by
    intro k; rw [← BMap.get_isSome_iff, ← BMap.get_isSome_iff, h3 k]; simp
  refine ⟨occ', h1, ⟨h2, fun k hk' => h.take k ((hk k).1 hk'), ?_⟩, hk⟩
  intro k n hn
  rw [h3 k] at hn
  cases hg : BMap.get occ k with
  | none => rw [hg] at hn; simp at hn
  | some m =>
    rw [hg] at hn
    simp only [Option.map_some, Option.some.injEq] at hn
    have hm := h.count k m hg
    have ht := h.take k ((BMap.get_isSome_iff _ _).1 (by rw [hg]; rfl))
    rw [hcnt k] at hm
    by_cases hkc : k ∈ c.c.keys
    · rw [if_pos ⟨hkc, ht⟩] at hn; rw [if_pos hkc] at hm; omega
    · rw [if_neg (fun hh => hkc hh.1)] at hn; rw [if_neg hkc] at hm; omega

/-! ### Choice of the signal -/

theorem takeSignal4_spec (forb order : List Nat) (occ : BMap Nat) (keys : List Nat)
    (hk : ∀ x ∈ keys, canTake forb x = true → x ∈ order ∨ x ∈ BMap.keys occ) :
    ∃ r, takeSignal4 forb order occ keys none none = .ok r ∧
      (r = none → ∀ x ∈ keys, canTake forb x = false) ∧
      (∀ v, r = some v → v ∈ keys ∧ canTake forb v = true ∧
        (v ∈ order ∨ ∀ x ∈ keys, canTake forb x = true → x ∉ order)) := by
  have gen : ∀ (ks : List Nat) (ret occRet : Option Nat), (∀ x ∈ ks, x ∈ keys) →
      (ret = none ↔ occRet = none) →
      (∀ v, ret = some v → v ∈ keys ∧ canTake forb v = true) →
      (ret = none → ∀ x ∈ keys, x ∉ ks → canTake forb x = false) →
      (∀ x ∈ keys, x ∉ ks → canTake forb x = true → x ∉ order) →
      ∃ r, takeSignal4 forb order occ ks ret occRet = .ok r ∧
      (r = none → ∀ x ∈ keys, canTake forb x = false) ∧
      (∀ v, r = some v → v ∈ keys ∧ canTake forb v = true ∧
        (v ∈ order ∨ ∀ x ∈ keys, canTake forb x = true → x ∉ order)) := by
    intro ks
    induction ks with
    | nil =>
      intro ret occRet _ _ h2 h3 h4
      refine ⟨ret, rfl, fun h x hx => h3 h x hx (by simp), fun v hv => ?_⟩
      exact ⟨(h2 v hv).1, (h2 v hv).2, Or.inr fun x hx hc => h4 x hx (by simp) hc⟩
    | cons k ks ih =>
      intro ret occRet hsub h1 h2 h3 h4
      have hkk : k ∈ keys := hsub k (by simp)
      have hsub' : ∀ x ∈ ks, x ∈ keys := fun x hx => hsub x (by simp [hx])
      unfold takeSignal4
      by_cases hc : canTake forb k = true
      · rw [if_pos hc]
        by_cases ho : order.contains k = true
        · rw [if_pos ho]
          refine ⟨some k, rfl, (by intro h; cases h), fun v hv => ?_⟩
          injection hv with hv; subst hv
          exact ⟨hkk, hc, Or.inl (by simpa using ho)⟩
        · rw [if_neg ho]
          have ho' : k ∉ order := by simpa using ho
          have hocc : k ∈ BMap.keys occ := (hk k hkk hc).resolve_left ho'
          obtain ⟨n, hn⟩ := Option.isSome_iff_exists.1 ((BMap.get_isSome_iff _ _).2 hocc)
          have h4' : ∀ x ∈ keys, x ∉ ks → canTake forb x = true → x ∉ order := by
            intro x hx hxk hxc
            by_cases hxe : x = k
            · subst hxe; exact ho'
            · exact h4 x hx (by simp [hxe, hxk]) hxc
          have hnew := ih (some k) (some n) hsub' (by simp) (by intro v hv; injection hv with hv; subst hv; exact ⟨hkk, hc⟩)
            (by intro h; cases h) h4'
          simp only [hn]
          cases occRet with
          | none => exact hnew
          | some v =>
            simp only []
            by_cases h5 : n < v
            · rw [if_pos h5]; exact hnew
            · rw [if_neg h5]
              cases ret with
              | none => have := h1.1 rfl; cases this
              | some r =>
                have hold := ih (some r) (some v) hsub' (by simp) h2 (by intro h; cases h) h4'
                by_cases h6 : n = v
                · rw [if_pos h6]
                  simp only []
                  by_cases h7 : r < k
                  · rw [if_pos h7]
                    exact ih (some k) (some v) hsub' (by simp)
                      (by intro v hv; injection hv with hv; subst hv; exact ⟨hkk, hc⟩) (by intro h; cases h) h4'
                  · rw [if_neg h7]; exact hold
                · rw [if_neg h6]; exact hold
      · rw [if_neg hc]
        have hc' : canTake forb k = false := by simpa using hc
        refine ih ret occRet hsub' h1 h2 ?_ ?_
        · intro h x hx hxk
          by_cases hxe : x = k
          · subst hxe; exact hc'
          · exact h3 h x hx (by simp [hxe, hxk])
        · intro x hx hxk hxc
          by_cases hxe : x = k
          · subst hxe; rw [hc'] at hxc; cases hxc
          · exact h4 x hx (by simp [hxe, hxk]) hxc
  exact gen keys none none (fun x hx => hx) (by simp) (by simp) (fun _ x hx hn => absurd hx hn) (fun x hx hn => absurd hx hn)

/-! ### Termination measure -/

/-- Weight of the eliminated signals among `keys` (`order`: most recently eliminated first). -/
def weight (keys : List Nat) : List Nat → Nat
  | [] => 0
  | x :: rest => (if x ∈ keys then 1 else 0) + 2 * weight keys rest

theorem weight_mono {keys keys' : List Nat} (order : List Nat) (h : ∀ x ∈ order, x ∈ keys' → x ∈ keys) :
    weight keys' order ≤ weight keys order := by
  induction order with
  | nil => simp [weight]
  | cons x rest ih =>
    have := ih (fun y hy => h y (by simp [hy]))
    have hx := h x (by simp)
    simp only [weight]
    by_cases h1 : x ∈ keys'
    · rw [if_pos h1, if_pos (hx h1)]; omega
    · rw [if_neg h1]; omega

theorem weight_lt_pow (keys order : List Nat) : weight keys order < 2 ^ order.length := by
  induction order with
  | nil => simp [weight]
  | cons x rest ih =>
    simp only [weight, List.length_cons, Nat.pow_succ]
    split <;> omega

theorem weight_decreases {keys keys' : List Nat} (pre : List Nat) (s : Nat) (post : List Nat) (hs : s ∈ keys)
    (hs' : s ∉ keys') (hpost : ∀ y ∈ post, y ∈ keys' → y ∈ keys) :
    weight keys' (pre ++ s :: post) < weight keys (pre ++ s :: post) := by
  induction pre with
  | nil =>
    simp only [List.nil_append, weight]
    rw [if_pos hs, if_neg hs']
    have := weight_mono post hpost
    omega
  | cons x pre ih =>
    simp only [List.cons_append, weight]
    split <;> split <;> omega

/-! ### The main loop -/

/-- Invariant of heuristic 4; `vec` are the constraints still to be processed, `sigs` bounds the signals. -/
structure Inv4 (p : Nat) (forb : List Nat) (sigs : List Nat) (st : St4) : Prop where
  sorted : BMap.Sorted st.subs
  good : ∀ e ∈ st.subs, GoodEntry p forb e
  keysEq : ∀ s, s ∈ st.order ↔ s ∈ BMap.keys st.subs
  nodup : st.order.Nodup
  ordered : st.order.Pairwise fun x y => ∀ e ∈ st.subs, e.1 = x → y ∉ e.2.2.rhs.keys
  known : ∀ e ∈ st.subs, ∀ x ∈ e.2.2.rhs.keys, canTake forb x = true → x ∈ st.order ∨ x ∈ BMap.keys st.occ
  bounded : ∀ s ∈ st.order, s ∈ sigs
  clean : ∀ c ∈ st.lconst, LinClean p c
  rest : ∀ c ∈ st.lconst, ∀ x ∈ c.c.keys, canTake forb x = false

/-- Inserting the entry of a signal that was never eliminated. -/
theorem inv4_insert {forb sigs : List Nat} (h0 : canTake forb 0 = false) {st : St4} (hinv : Inv4 p forb sigs st)
    {work : C} {out : Nat} (hnew : out ∉ st.order) (hsig : out ∈ sigs) {co : Int} {t : S}
    (hge : GoodEntry p forb (out, (co, t)))
    (hkeys : ∀ x ∈ t.rhs.keys, x = 0 ∨ (x ≠ out ∧ x ∈ work.c.keys))
    (hnone : ∀ x ∈ work.c.keys, canTake forb x = true → x ∉ st.order)
    (hocc : ∀ x ∈ work.c.keys, canTake forb x = true → x ∈ st.order ∨ x ∈ BMap.keys st.occ) (step : Nat) :
    Inv4 p forb sigs ⟨BMap.insert st.subs out (co, t), st.lconst, out :: st.order, BMap.remove st.occ out, step⟩ := by
  have hget : out ∉ BMap.keys st.subs := fun h => hnew ((hinv.keysEq out).2 h)
  have hm := fun e => BMap.mem_insert_iff hinv.sorted out (co, t) e
  refine ⟨BMap.sorted_insert hinv.sorted _ _, ?_, ?_, ?_, ?_, ?_, ?_, hinv.clean, hinv.rest⟩
  · intro e he
    rcases (hm e).1 he with rfl | ⟨he, _⟩
    · exact hge
    · exact hinv.good e he
  · intro s
    simp only [List.mem_cons, BMap.mem_keys_insert hinv.sorted, hinv.keysEq]
  · exact List.nodup_cons.2 ⟨hnew, hinv.nodup⟩
  · refine List.pairwise_cons.2 ⟨?_, ?_⟩
    · intro y hy e he heq
      rcases (hm e).1 he with rfl | ⟨_, hne⟩
      · intro hmem
        have hyt : canTake forb y = true := by
          obtain ⟨v, hv⟩ := (BMap.mem_keys_iff _ _).1 ((hinv.keysEq y).1 hy)
          exact (hinv.good _ hv).take
        rcases hkeys y hmem with rfl | ⟨_, hw⟩
        · rw [h0] at hyt; cases hyt
        · exact hnone y hw hyt hy
      · exact absurd heq hne
    · refine hinv.ordered.imp_of_mem ?_
      intro x y hx hy hxy e he heq
      rcases (hm e).1 he with rfl | ⟨he, _⟩
      · simp only at heq; subst heq; exact absurd hx hnew
      · exact hxy e he heq
  · intro e he x hx hc
    simp only [List.mem_cons, BMap.mem_keys_remove]
    by_cases hxo : x = out
    · exact Or.inl (Or.inl hxo)
    · rcases (hm e).1 he with rfl | ⟨he, _⟩
      · rcases hkeys x hx with rfl | ⟨_, hw⟩
        · rw [h0] at hc; cases hc
        · rcases hocc x hw hc with h | h
          · exact Or.inl (Or.inr h)
          · exact Or.inr ⟨h, hxo⟩
      · rcases hinv.known e he x hx hc with h | h
        · exact Or.inl (Or.inr h)
        · exact Or.inr ⟨h, hxo⟩
  · intro s hs
    rcases List.mem_cons.1 hs with rfl | hs
    · exact hsig
    · exact hinv.bounded s hs

theorem occInv_remove {forb : List Nat} {occ : BMap Nat} {vec : List C} (h : OccInv forb occ vec) (k : Nat) :
    OccInv forb (BMap.remove occ k) vec := by
  refine ⟨BMap.sorted_remove h.sorted k, fun x hx => h.take x ((BMap.mem_keys_remove _ _).1 hx).1, fun x n hn => ?_⟩
  rw [BMap.get_remove h.sorted] at hn
  split at hn
  · cases hn
  · exact h.count x n hn

theorem treat4_spec (hp : p.Prime) (ord : HashOrder) (hord : ord.Valid) (forb sigs : List Nat) (h0 : 0 ∈ forb)
    (vec : List C) :
    ∀ (fuel : Nat) (st : St4) (work : C), Inv4 p forb sigs st → OccInv forb st.occ vec → LinClean p work →
      (∀ x ∈ work.c.keys, canTake forb x = true → x ∈ st.order ∨ x ∈ BMap.keys st.occ) →
      (∀ x ∈ work.c.keys, x ∈ sigs ∨ x = 0) →
      (∀ e ∈ st.subs, ∀ x ∈ e.2.2.rhs.keys, x ∈ sigs ∨ x = 0) →
      weight work.c.keys st.order < fuel →
      ∃ st', treat4 ord forb p fuel st work = .ok st' ∧ Inv4 p forb sigs st' ∧ OccInv forb st'.occ vec ∧
        (∀ x, x ∈ st.order ∨ x ∈ BMap.keys st.occ → x ∈ st'.order ∨ x ∈ BMap.keys st'.occ) ∧
        (∀ ρ : Nat → ZMod p, ρ 0 = 1 → (Sat ρ st'.subs st'.lconst ↔ Sat ρ st.subs st.lconst ∧ work.Holds ρ)) ∧
        (∀ x, Mentions st'.subs st'.lconst x → x = 0 ∨ Mentions st.subs st.lconst x ∨ x ∈ work.c.keys) := by
  have hct0 : canTake forb 0 = false := by simp [canTake, h0]
  intro fuel
  induction fuel with
  | zero => intro _ _ _ _ _ _ _ _ h; omega
  | succ fuel ih =>
    intro st work hinv hoi hw hocc hwsig hssig hfuel
    unfold treat4
    by_cases hemp : work.isEmpty = true
    · rw [if_pos hemp]
      refine ⟨st, rfl, hinv, hoi, fun x hx => hx, fun ρ _ => ?_, fun x hx => Or.inr (Or.inl hx)⟩
      have : work.Holds ρ := by rw [hw.holds, hw.isEmpty_iff.1 hemp, ev_nil]
      simp [this]
    · rw [if_neg hemp]
      have hperm := hord st.step work.c
      obtain ⟨r, t0, t1, t2⟩ := takeSignal4_spec forb st.order st.occ (ord st.step work.c)
        (fun x hx hc => hocc x (hperm.mem_iff.1 hx) hc)
      rw [t0, ok_bind]
      cases r with
      | none =>
        simp only []
        refine ⟨_, rfl, ⟨hinv.sorted, hinv.good, hinv.keysEq, hinv.nodup, hinv.ordered, hinv.known, hinv.bounded, ?_, ?_⟩,
          hoi, fun x hx => hx, ?_, ?_⟩
        · intro c hc
          simp only [List.mem_append, List.mem_singleton] at hc
          rcases hc with hc | rfl
          · exact hinv.clean c hc
          · exact hw
        · intro c hc x hx
          simp only [List.mem_append, List.mem_singleton] at hc
          rcases hc with hc | rfl
          · exact hinv.rest c hc x hx
          · exact t1 rfl x (hperm.mem_iff.2 hx)
        · intro ρ _
          simp only [Sat, List.mem_append, List.mem_singleton]
          constructor
          · rintro ⟨h1, h2⟩
            exact ⟨⟨h1, fun c hc => h2 c (Or.inl hc)⟩, h2 work (Or.inr rfl)⟩
          · rintro ⟨⟨h1, h2⟩, h3⟩
            refine ⟨h1, fun c hc => ?_⟩
            rcases hc with hc | rfl
            · exact h2 c hc
            · exact h3
        · rintro x (h | ⟨c, hc, hx⟩)
          · exact Or.inr (Or.inl (Or.inl h))
          · simp only [List.mem_append, List.mem_singleton] at hc
            rcases hc with hc | rfl
            · exact Or.inr (Or.inl (Or.inr ⟨c, hc, hx⟩))
            · exact Or.inr (Or.inr hx)
      | some out =>
        obtain ⟨hout, hcan, hpref⟩ := t2 out rfl
        have hout' : out ∈ work.c.keys := hperm.mem_iff.1 hout
        have hne : out ≠ 0 := by rintro rfl; rw [hct0] at hcan; cases hcan
        obtain ⟨co, t, h1, h2, h3, h4, h5, _, h6⟩ := clearNN_spec hp.pos hw hout' hne
        simp only [h1, ok_bind, h2]
        have hself : out ∉ t.rhs.keys := fun hx => by
          rcases (h4 out).1 hx with h | ⟨h, _⟩
          · exact hne h
          · exact h rfl
        have hge : GoodEntry p forb (out, (co, t)) := ⟨h2, h5, h3, hself, hcan⟩
        by_cases hdel : out ∈ st.order
        · -- already eliminated: merge
          obtain ⟨c, hget⟩ := Option.isSome_iff_exists.1 ((BMap.get_isSome_iff _ _).2 ((hinv.keysEq out).1 hdel))
          obtain ⟨coR, sR⟩ := c
          simp only [hget]
          have hmemR := BMap.get_mem hget
          have hgR := hinv.good _ hmemR
          obtain ⟨k, hk1, hk2, hk3, hk4⟩ := merge_spec hp.pos co coR t sR h3 hgR.rhs
          simp only [hk1, ok_bind]
          have hknew : ∀ x ∈ k.c.keys, x = 0 ∨ (x ≠ out ∧ x ∈ work.c.keys) ∨ x ∈ sR.rhs.keys := by
            intro x hx
            rcases hk3 x hx with h | h | h
            · exact Or.inl h
            · rcases (h4 x).1 h with h | h
              · exact Or.inl h
              · exact Or.inr (Or.inl h)
            · exact Or.inr (Or.inr h)
          obtain ⟨pre, post, hsplit⟩ := List.append_of_mem hdel
          have hpost : ∀ y ∈ post, y ∉ sR.rhs.keys := by
            intro y hy
            have := hinv.ordered
            rw [hsplit] at this
            exact (List.pairwise_cons.1 (List.pairwise_append.1 this).2.1).1 y hy _ hmemR rfl
          have htake : ∀ y ∈ st.order, canTake forb y = true := by
            intro y hy
            obtain ⟨v, hv⟩ := (BMap.mem_keys_iff _ _).1 ((hinv.keysEq y).1 hy)
            exact (hinv.good _ hv).take
          have hdec : weight k.c.keys st.order < weight work.c.keys st.order := by
            rw [hsplit]
            refine weight_decreases pre out post hout' ?_ ?_
            · intro hx
              rcases hknew out hx with h | h | h
              · exact hne h
              · exact h.1 rfl
              · exact hgR.self h
            · intro y hy hyk
              rcases hknew y hyk with h | h | h
              · subst h
                have := htake 0 (by rw [hsplit]; simp [hy])
                rw [hct0] at this; cases this
              · exact h.2
              · exact absurd h (hpost y hy)
          obtain ⟨st', r1, r2, r2', r2'', r3, r4⟩ := ih ⟨st.subs, st.lconst, st.order, st.occ, st.step + 1⟩ k
            ⟨hinv.sorted, hinv.good, hinv.keysEq, hinv.nodup, hinv.ordered, hinv.known, hinv.bounded, hinv.clean, hinv.rest⟩
            hoi hk2
            (by
              intro x hx hc
              rcases hknew x hx with rfl | h | h
              · rw [hct0] at hc; cases hc
              · exact hocc x h.2 hc
              · exact hinv.known _ hmemR x h hc)
            (by
              intro x hx
              rcases hknew x hx with h | h | h
              · exact Or.inr h
              · exact hwsig x h.2
              · exact hssig _ hmemR x h)
            hssig (by simp only; omega)
          refine ⟨st', r1, r2, r2', r2'', ?_, ?_⟩
          · intro ρ hρ
            rw [r3 ρ hρ]
            constructor
            · rintro ⟨hs, hkh⟩
              exact ⟨hs, (merge_step hp hgR h6 hk4 ρ hρ (hs.1 _ hmemR)).1 hkh⟩
            · rintro ⟨hs, hkh⟩
              exact ⟨hs, (merge_step hp hgR h6 hk4 ρ hρ (hs.1 _ hmemR)).2 hkh⟩
          · intro x hx
            rcases r4 x hx with h | h | h
            · exact Or.inl h
            · exact Or.inr (Or.inl h)
            · rcases hknew x h with h | h | h
              · exact Or.inl h
              · exact Or.inr (Or.inr h.2)
              · exact Or.inr (Or.inl (Or.inl ⟨_, hmemR, Or.inr h⟩))
        · -- new elimination
          have hget : st.subs.get out = none := (BMap.get_eq_none_iff _ _).2 fun h => hdel ((hinv.keysEq out).2 h)
          simp only [hget]
          have hnone : ∀ x ∈ work.c.keys, canTake forb x = true → x ∉ st.order := by
            rcases hpref with h | h
            · exact absurd h hdel
            · exact fun x hx => h x (hperm.mem_iff.2 hx)
          refine ⟨_, rfl, inv4_insert (work := work) hct0 hinv hdel ((hwsig out hout').resolve_right hne) hge (fun x hx => (h4 x).1 hx)
            hnone hocc _, occInv_remove hoi out, ?_, ?_, ?_⟩
          · intro x hx
            simp only [List.mem_cons, BMap.mem_keys_remove]
            by_cases hxo : x = out
            · exact Or.inl (Or.inl hxo)
            · rcases hx with h | h
              · exact Or.inl (Or.inr h)
              · exact Or.inr ⟨h, hxo⟩
          · intro ρ _
            rw [sat_insert hinv.sorted hget, h6 ρ]
            rfl
          · rintro x (⟨e, he, hx⟩ | h)
            · rcases (BMap.mem_insert_iff hinv.sorted _ _ _).1 he with rfl | ⟨he, _⟩
              · rcases hx with hx | hx
                · exact Or.inr (Or.inr (hx ▸ hout'))
                · rcases (h4 x).1 hx with h | ⟨_, h⟩
                  · exact Or.inl h
                  · exact Or.inr (Or.inr h)
              · exact Or.inr (Or.inl (Or.inl ⟨e, he, hx⟩))
            · exact Or.inr (Or.inl (Or.inr h))

end Verif.Linear
