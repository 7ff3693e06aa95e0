import Verif.HashMap
import Mathlib.Data.Nat.ModEq
import Mathlib.Tactic.Ring

/-! Facts about the open-addressing table. -/

namespace Verif.HashMap

/-- Occupied, by the test of the construction. -/
def Occ (t : List Slot) (q : Nat) : Prop := ∃ e, t[q]? = some e ∧ e.start ≠ 0

/-- Free, by the test of the construction. -/
def Free (t : List Slot) (q : Nat) : Prop := ∃ e, t[q]? = some e ∧ e.start = 0

theorem occ_or_free {t : List Slot} {q : Nat} (h : q < t.length) : Occ t q ∨ Free t q := by
  by_cases hs : (t[q]).start = 0
  · exact .inr ⟨t[q], List.getElem?_eq_getElem h, hs⟩
  · exact .inl ⟨t[q], List.getElem?_eq_getElem h, hs⟩

theorem Occ.not_free {t : List Slot} {q : Nat} (h : Occ t q) : ¬ Free t q := by
  rintro ⟨e, he, h0⟩
  obtain ⟨e', he', h1⟩ := h
  rw [he] at he'; cases he'; exact h1 h0

theorem mod_step (p k n : Nat) : ((p + 1) % n + k) % n = (p + (k + 1)) % n := by
  rw [Nat.mod_add_mod]; congr 1; omega

/-- The search of the construction stops at the first free place. -/
theorem probe_spec (t : List Slot) : ∀ (fuel p : Nat), p < t.length →
    (∃ k < fuel, Free t ((p + k) % t.length)) →
    ∃ k < fuel, probe t fuel p = .ok ((p + k) % t.length) ∧ Free t ((p + k) % t.length) ∧
      ∀ j < k, Occ t ((p + j) % t.length)
  | 0, _, _, h => by obtain ⟨k, hk, _⟩ := h; omega
  | fuel + 1, p, hp, h => by
    have hp0 : p % t.length = p := Nat.mod_eq_of_lt hp
    by_cases hf : Free t p
    · refine ⟨0, by omega, ?_, by simpa [hp0] using hf, by omega⟩
      obtain ⟨e, he, h0⟩ := hf
      simp [probe, he, h0, hp0]
    · have ho : Occ t p := (occ_or_free hp).resolve_right hf
      obtain ⟨k, hk, hk'⟩ := h
      cases k with
      | zero => rw [Nat.add_zero, hp0] at hk'; exact absurd hk' hf
      | succ k =>
        obtain ⟨k', hlt, hpr, hfr, hoc⟩ := probe_spec t fuel ((p + 1) % t.length)
          (Nat.mod_lt _ (by omega)) ⟨k, by omega, by rw [mod_step]; exact hk'⟩
        rw [mod_step] at hpr hfr
        refine ⟨k' + 1, by omega, ?_, hfr, ?_⟩
        · obtain ⟨e, he, h0⟩ := ho
          simp only [probe, he, ne_eq, h0, not_false_eq_true, if_true, hpr]
        · intro j hj
          cases j with
          | zero => rw [Nat.add_zero, hp0]; exact ho
          | succ j => rw [← mod_step]; exact hoc j (by omega)

/-- The place `q` is reached from `p` in fewer than `n` steps. -/
theorem reach (n p q : Nat) (hp : p < n) (hq : q < n) : ∃ k < n, (p + k) % n = q := by
  by_cases h : p ≤ q
  · exact ⟨q - p, by omega, by rw [Nat.add_sub_cancel' h, Nat.mod_eq_of_lt hq]⟩
  · refine ⟨q + n - p, by omega, ?_⟩
    have : p + (q + n - p) = q + n := by omega
    rw [this, Nat.add_mod_right, Nat.mod_eq_of_lt hq]

/-- What is true of a table holding the inputs `is`. -/
structure Good (H : String → Nat) (n : Nat) (is : List Info) (t : List Slot) : Prop where
  len : t.length = n
  count : t.countP (fun e => decide (e.start ≠ 0)) ≤ is.length
  starts : ∀ i ∈ is, i.start ≠ 0
  zero : ∀ (q : Nat) (e : Slot), t[q]? = some e → e.start = 0 → e = ⟨0, 0, 0⟩
  mem : ∀ (q : Nat) (e : Slot), t[q]? = some e → e.start ≠ 0 → ∃ i ∈ is, e = entry H i
  path : ∀ i ∈ is, ∃ k < n, t[(H i.name + k) % n]? = some (entry H i) ∧
    ∀ j < k, Occ t ((H i.name + j) % n)

/-- Two occupied places have different hashes. -/
def Uniq (t : List Slot) : Prop :=
  ∀ (q q' : Nat) (e e' : Slot), t[q]? = some e → t[q']? = some e' → e.start ≠ 0 → e'.start ≠ 0 → e.hash = e'.hash →
    q = q'

theorem exists_free {H : String → Nat} {n : Nat} {is : List Info} {t : List Slot}
    (g : Good H n is t) (h : is.length < n) : ∃ q < n, Free t q := by
  by_contra hno
  push Not at hno
  have : t.countP (fun e => decide (e.start ≠ 0)) = t.length := by
    rw [List.countP_eq_length]
    intro e he
    obtain ⟨q, hq, rfl⟩ := List.getElem_of_mem he
    have := (occ_or_free hq).resolve_right (hno q (g.len ▸ hq))
    obtain ⟨e', he', h0⟩ := this
    rw [List.getElem?_eq_getElem hq] at he'
    cases he'
    simpa using h0
  have := g.count
  have := g.len
  omega

theorem occ_set {t : List Slot} {p q : Nat} {e : Slot} (he : e.start ≠ 0)
    (h : Occ t q) : Occ (t.set p e) q := by
  obtain ⟨e', he', h0⟩ := h
  by_cases hpq : p = q
  · subst hpq
    have hlt : p < t.length := (List.getElem?_eq_some_iff.mp he').1
    exact ⟨e, by simp [hlt], he⟩
  · exact ⟨e', by simp [List.getElem?_set_ne hpq, he'], h0⟩

theorem good_insert {H : String → Nat} {n : Nat} {is : List Info} {t : List Slot} {i : Info}
    (g : Good H n is t) {k : Nat} (hk : k < n) (hi : i.start ≠ 0)
    (hf : Free t ((H i.name + k) % n)) (ho : ∀ j < k, Occ t ((H i.name + j) % n)) :
    Good H n (is ++ [i]) (t.set ((H i.name + k) % n) (entry H i)) := by
  have hn : 0 < n := by omega
  set p := (H i.name + k) % n with hp
  have hplt : p < t.length := by rw [g.len]; exact Nat.mod_lt _ hn
  have hes : (entry H i).start ≠ 0 := hi
  obtain ⟨e0, he0, hs0⟩ := hf
  have he0' : t[p] = e0 := by
    rw [List.getElem?_eq_getElem hplt] at he0; exact Option.some.inj he0
  refine ⟨by simp [g.len], ?_, ?_, ?_, ?_, ?_⟩
  · rw [List.countP_set hplt]
    have := g.count
    simp only [ne_eq] at this
    simp only [he0', hs0, ne_eq, not_true_eq_false, decide_false, Bool.false_eq_true, if_false,
      List.length_append, List.length_cons, List.length_nil]
    split <;> omega
  · intro i' hi'
    rw [List.mem_append, List.mem_singleton] at hi'
    rcases hi' with hi' | rfl
    · exact g.starts i' hi'
    · exact hi
  · intro q e hq h0
    by_cases hpq : p = q
    · rw [← hpq, List.getElem?_set_self hplt] at hq
      cases hq; exact absurd h0 hes
    · rw [List.getElem?_set_ne hpq] at hq
      exact g.zero q e hq h0
  · intro q e hq h0
    by_cases hpq : p = q
    · rw [← hpq, List.getElem?_set_self hplt] at hq
      cases hq; exact ⟨i, by simp, rfl⟩
    · rw [List.getElem?_set_ne hpq] at hq
      obtain ⟨i', hi', he⟩ := g.mem q e hq h0
      exact ⟨i', by simp [hi'], he⟩
  · intro i' hi'
    rw [List.mem_append, List.mem_singleton] at hi'
    rcases hi' with hi' | hi'
    · obtain ⟨k', hk', hat, hoc⟩ := g.path i' hi'
      have hs := g.starts i' hi'
      refine ⟨k', hk', ?_, fun j hj => occ_set hes (hoc j hj)⟩
      have hpq : p ≠ (H i'.name + k') % n := by
        intro hpq
        rw [hpq, hat] at he0
        cases he0; exact hs hs0
      rw [List.getElem?_set_ne hpq]; exact hat
    · subst hi'
      exact ⟨k, hk, List.getElem?_set_self hplt, fun j hj => occ_set hes (ho j hj)⟩

theorem good_empty (H : String → Nat) (n : Nat) : Good H n [] (List.replicate n ⟨0, 0, 0⟩) := by
  refine ⟨by simp, ?_, by simp, ?_, ?_, by simp⟩
  · simp [List.countP_replicate]
  · intro q e hq _
    rw [List.getElem?_replicate] at hq
    split at hq
    · exact (Option.some.inj hq).symm
    · cases hq
  · intro q e hq h0
    rw [List.getElem?_replicate] at hq
    split at hq
    · cases hq; exact absurd rfl h0
    · cases hq

theorem insertAll_good {H : String → Nat} {n : Nat} : ∀ (is done : List Info) (t : List Slot),
    Good H n done t → (∀ i ∈ is, i.start ≠ 0) → done.length + is.length ≤ n →
    ∃ t', (∀ fuel, n ≤ fuel → insertAll H fuel is t = .ok t') ∧ Good H n (done ++ is) t'
  | [], done, t, g, _, _ => ⟨t, fun _ _ => rfl, by simpa using g⟩
  | i :: is, done, t, g, hs, hlen => by
    simp only [List.length_cons] at hlen
    have hn : 0 < n := by omega
    have hp : H i.name % n < n := Nat.mod_lt _ hn
    obtain ⟨q, hq, hfree⟩ := exists_free g (by omega)
    obtain ⟨k, hk, hkq⟩ := reach n _ q hp hq
    have hspec := fun fuel (hf : n ≤ fuel) => probe_spec t fuel (H i.name % n) (by rw [g.len]; exact hp)
      ⟨k, by omega, by rw [g.len, hkq]; exact hfree⟩
    simp only [g.len, Nat.mod_add_mod] at hspec
    obtain ⟨k0, hk0, hpr0, hf0, ho0⟩ := hspec n le_rfl
    have hall : ∀ fuel, n ≤ fuel → probe t fuel (H i.name % n) = .ok ((H i.name + k0) % n) := by
      intro fuel hf
      obtain ⟨k1, hk1, hpr1, hf1, ho1⟩ := hspec fuel hf
      rcases Nat.lt_trichotomy k0 k1 with h | h | h
      · exact absurd hf0 (ho1 k0 h).not_free
      · rw [h]; exact hpr1
      · exact absurd hf1 (ho0 k1 h).not_free
    have g' := good_insert g hk0 (hs i (by simp)) hf0 ho0
    obtain ⟨t', ht', gt'⟩ := insertAll_good is (done ++ [i]) _ g'
      (fun j hj => hs j (by simp [hj])) (by simp; omega)
    refine ⟨t', fun fuel hf => ?_, by simpa using gt'⟩
    have hne : ¬ n = 0 := by omega
    simp only [insertAll, g.len, hne, if_false, hall fuel hf]
    exact ht' fuel hf

/-- Distinct hashes stay distinct in the table. -/
theorem uniq_insertAll {H : String → Nat} {fuel : Nat} : ∀ (is done : List Info) (t t' : List Slot),
    insertAll H fuel is t = .ok t' →
    (∀ (q : Nat) (e : Slot), t[q]? = some e → e.start ≠ 0 → ∃ i ∈ done, e = entry H i) →
    ((done ++ is).map fun i => H i.name).Nodup → Uniq t → Uniq t'
  | [], _, t, t', h, _, _, hu => by cases h; exact hu
  | i :: is, done, t, t', h, hmem, hnd, hu => by
    simp only [insertAll] at h
    split at h
    · cases h
    · split at h
      · cases h
      · rename_i p _
        have hnew : ∀ (q : Nat) (e : Slot), t[q]? = some e → e.start ≠ 0 → e.hash ≠ (entry H i).hash := by
          intro q e hq h0 heq
          obtain ⟨i', hi', rfl⟩ := hmem q e hq h0
          rw [List.map_append, List.nodup_append] at hnd
          exact hnd.2.2 _ (List.mem_map_of_mem hi') (H i.name) (by simp) heq
        refine uniq_insertAll is (done ++ [i]) _ t' h ?_ (by simpa using hnd) ?_
        · intro q e hq h0
          by_cases hpq : p = q
          · rw [hpq, List.getElem?_set_self'] at hq
            cases hq' : t[q]? with
            | none => simp [hq'] at hq
            | some x => simp [hq'] at hq; exact ⟨i, by simp, hq.symm⟩
          · rw [List.getElem?_set_ne hpq] at hq
            obtain ⟨i', hi', he⟩ := hmem q e hq h0
            exact ⟨i', by simp [hi'], he⟩
        · intro q q' e e' hq hq' h0 h0' heq
          by_cases hpq : p = q <;> by_cases hpq' : p = q'
          · rw [← hpq, hpq']
          · rw [List.getElem?_set_ne hpq'] at hq'
            rw [hpq, List.getElem?_set_self'] at hq
            cases hx : t[q]? with
            | none => simp [hx] at hq
            | some x =>
              simp [hx] at hq
              exact absurd (by rw [← heq, ← hq]) (hnew q' e' hq' h0')
          · rw [List.getElem?_set_ne hpq] at hq
            rw [hpq', List.getElem?_set_self'] at hq'
            cases hx : t[q']? with
            | none => simp [hx] at hq'
            | some x =>
              simp [hx] at hq'
              exact absurd (by rw [heq, ← hq']) (hnew q e hq h0)
          · rw [List.getElem?_set_ne hpq] at hq
            rw [List.getElem?_set_ne hpq'] at hq'
            exact hu q q' e e' hq hq' h0 h0' heq

theorem add_mod_ne {n home a b : Nat} (ha : a < n) (hb : b < n) (h : a ≠ b) :
    (home + a) % n ≠ (home + b) % n := by
  intro heq
  have h' : a ≡ b [MOD n] := Nat.ModEq.add_left_cancel' home heq
  exact h (Nat.ModEq.eq_of_lt_of_lt h' ha hb)

/-- The loop of the C++ lookup finds a hash that is reached over occupied places with other hashes. -/
theorem searchC_spec {t : List Slot} {h k : Nat} {e : Slot} (hk : k < t.length)
    (hat : t[(h + k) % t.length]? = some e) (he : e.hash = h)
    (hoc : ∀ j < k, ∃ e', t[(h + j) % t.length]? = some e' ∧ e'.start ≠ 0 ∧ e'.hash ≠ h) :
    ∀ (d j fuel : Nat), j + d = k → 0 < j → d < fuel →
      searchC t h (h % t.length) fuel ((h + j) % t.length) = .ok ((h + k) % t.length)
  | 0, j, fuel + 1, hj, hj0, _ => by
    have : j = k := by omega
    subst this
    have hne : (h + j) % t.length ≠ h % t.length := by
      have := add_mod_ne (home := h) hk (b := 0) (by omega) (by omega)
      simpa using this
    simp [searchC, hne, hat, he]
  | d + 1, j, fuel + 1, hj, hj0, hf => by
    have hne : (h + j) % t.length ≠ h % t.length := by
      have := add_mod_ne (n := t.length) (home := h) (a := j) (b := 0) (by omega) (by omega) (by omega)
      simpa using this
    obtain ⟨e', he', h0', hne'⟩ := hoc j (by omega)
    have := searchC_spec hk hat he hoc d (j + 1) fuel (by omega) (by omega) (by omega)
    simp only [searchC, hne, if_false, he', hne', h0']
    rw [Nat.mod_add_mod]
    exact this

theorem findC_spec {t : List Slot} {h k : Nat} {e : Slot} (hk : k < t.length)
    (hat : t[(h + k) % t.length]? = some e) (he : e.hash = h)
    (hoc : ∀ j < k, ∃ e', t[(h + j) % t.length]? = some e' ∧ e'.start ≠ 0 ∧ e'.hash ≠ h) :
    findC t h = .ok ((h + k) % t.length) := by
  have hn : ¬ t.length = 0 := by omega
  cases k with
  | zero =>
    rw [Nat.add_zero] at hat ⊢
    simp [findC, hn, hat, he]
  | succ k =>
    obtain ⟨e', he', _, hne'⟩ := hoc 0 (by omega)
    rw [Nat.add_zero] at he'
    simp only [findC, hn, if_false, he', ne_eq, hne', not_false_eq_true, if_true]
    rw [Nat.mod_add_mod]
    exact searchC_spec hk hat he hoc k 1 t.length (by omega) (by omega) (by omega)

/-- A hash that is in no place is not found, and the search ends. -/
theorem searchC_none {t : List Slot} {h : Nat} (hno : ∀ e ∈ t, e.hash ≠ h) :
    ∀ (d j fuel : Nat), j + d = t.length → 0 < j → d < fuel →
      searchC t h (h % t.length) fuel ((h + j) % t.length) = .error .notFound
  | 0, j, fuel + 1, hj, hj0, _ => by
    have : j = t.length := by omega
    subst this
    simp [searchC]
  | d + 1, j, fuel + 1, hj, hj0, hf => by
    have hne : (h + j) % t.length ≠ h % t.length := by
      have := add_mod_ne (n := t.length) (home := h) (a := j) (b := 0) (by omega) (by omega) (by omega)
      simpa using this
    have hlt : (h + j) % t.length < t.length := Nat.mod_lt _ (by omega)
    have hh : (t[(h + j) % t.length]).hash ≠ h := hno _ (List.getElem_mem hlt)
    have := searchC_none hno d (j + 1) fuel (by omega) (by omega) (by omega)
    simp only [searchC, hne, if_false, List.getElem?_eq_getElem hlt, hh]
    split
    · rfl
    · rw [Nat.mod_add_mod]; exact this

theorem findC_none {t : List Slot} {h : Nat} (hn : 0 < t.length) (hno : ∀ e ∈ t, e.hash ≠ h) :
    findC t h = .error .notFound := by
  have hlt : h % t.length < t.length := Nat.mod_lt _ hn
  have hh : (t[h % t.length]).hash ≠ h := hno _ (List.getElem_mem hlt)
  have h0 : ¬ t.length = 0 := by omega
  simp only [findC, h0, if_false, List.getElem?_eq_getElem hlt, ne_eq, hh, not_false_eq_true, if_true]
  rw [Nat.mod_add_mod]
  exact searchC_none hno (t.length - 1) 1 t.length (by omega) (by omega) (by omega)

theorem land_mask {n m : Nat} (h : n = 2 ^ m) (x : Nat) : Nat.land x (n - 1) = x % n := by
  subst h
  exact Nat.and_two_pow_sub_one_eq_mod x m

theorem mod_mod_pow {n m h : Nat} (hn : n = 2 ^ m) (hm : m ≤ 32) : h % 2 ^ 32 % n = h % n := by
  subst hn
  exact Nat.mod_mod_of_dvd h (pow_dvd_pow 2 hm)

theorem searchW_spec {t : List Slot} {h k m : Nat} {e : Slot} (hn : t.length = 2 ^ m)
    (hk : k < t.length) (hat : t[(h + k) % t.length]? = some e) (he : e.hash = h)
    (hoc : ∀ j < k, ∃ e', t[(h + j) % t.length]? = some e' ∧ e'.hash ≠ 0 ∧ e'.hash ≠ h) :
    ∀ (d j fuel : Nat), j + d = k → d < fuel →
      searchW t h (h % t.length) fuel ((h + j) % t.length) = .ok ((h + k) % t.length)
  | 0, j, fuel + 1, hj, _ => by
    have : j = k := by omega
    subst this
    simp [searchW, hat, he]
  | d + 1, j, fuel + 1, hj, hf => by
    obtain ⟨e', he', h0', hne'⟩ := hoc j (by omega)
    have hne : (h + j + 1) % t.length ≠ h % t.length := by
      have := add_mod_ne (n := t.length) (home := h) (a := j + 1) (b := 0) (by omega) (by omega)
        (by omega)
      simpa [Nat.add_assoc] using this
    have := searchW_spec hn hk hat he hoc d (j + 1) fuel (by omega) (by omega)
    simp only [searchW, he', hne', if_false, h0', land_mask hn, Nat.mod_add_mod, hne]
    exact this

theorem findW_spec {t : List Slot} {h k m : Nat} {e : Slot} (hn : t.length = 2 ^ m) (hm : m ≤ 32)
    (hk : k < t.length) (hat : t[(h + k) % t.length]? = some e) (he : e.hash = h)
    (hoc : ∀ j < k, ∃ e', t[(h + j) % t.length]? = some e' ∧ e'.hash ≠ 0 ∧ e'.hash ≠ h) :
    findW t h = .ok ((h + k) % t.length) := by
  have := searchW_spec hn hk hat he hoc k 0 t.length (by omega) hk
  simp only [findW, land_mask hn, mod_mod_pow hn hm]
  simpa using this

theorem searchW_none {t : List Slot} {h m : Nat} (hn : t.length = 2 ^ m)
    (hno : ∀ e ∈ t, e.hash ≠ h) : ∀ (d j fuel : Nat), j + d + 1 = t.length → d < fuel →
      searchW t h (h % t.length) fuel ((h + j) % t.length) = .error .notFound
  | 0, j, fuel + 1, hj, _ => by
    have hlt : (h + j) % t.length < t.length := Nat.mod_lt _ (by omega)
    have hh : (t[(h + j) % t.length]).hash ≠ h := hno _ (List.getElem_mem hlt)
    have heq : (h + j + 1) % t.length = h % t.length := by
      have : h + j + 1 = h + t.length := by omega
      rw [this, Nat.add_mod_right]
    simp only [searchW, List.getElem?_eq_getElem hlt, hh, if_false, land_mask hn, Nat.mod_add_mod,
      heq, if_true]
    split <;> rfl
  | d + 1, j, fuel + 1, hj, hf => by
    have hlt : (h + j) % t.length < t.length := Nat.mod_lt _ (by omega)
    have hh : (t[(h + j) % t.length]).hash ≠ h := hno _ (List.getElem_mem hlt)
    have := searchW_none hn hno d (j + 1) fuel (by omega) (by omega)
    simp only [searchW, List.getElem?_eq_getElem hlt, hh, if_false, land_mask hn, Nat.mod_add_mod]
    split
    · rfl
    · split
      · rfl
      · exact this

theorem findW_none {t : List Slot} {h m : Nat} (hn : t.length = 2 ^ m) (hm : m ≤ 32)
    (hno : ∀ e ∈ t, e.hash ≠ h) : findW t h = .error .notFound := by
  have hpos : 0 < t.length := by rw [hn]; exact Nat.two_pow_pos m
  have := searchW_none hn hno (t.length - 1) 0 t.length (by omega) (by omega)
  simp only [findW, land_mask hn, mod_mod_pow hn hm]
  simpa using this

end Verif.HashMap
