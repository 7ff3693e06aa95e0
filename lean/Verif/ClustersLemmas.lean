import Verif.Clusters
import Verif.SimplifyLemmas
import Mathlib.Logic.Relation

/-! Union-find invariants for `build_clusters`. -/

set_option linter.unusedSectionVars false
set_option linter.unusedSimpArgs false

namespace Verif.Clusters
open Verif.ModArith (Res Fail)
open Verif.Algebra Verif.Linear Verif.Props.Algebra

/-- The path vector represents the class function `r`. -/
structure PathOK (n : Nat) (path : List Nat) (r : Nat → Nat) : Prop where
  len : path.length = n
  bound : ∀ i, i < n → r i < n
  up : ∀ i q, path[i]? = some q → i ≤ q ∧ q < n ∧ q ≤ r i ∧ r q = r i
  fix : ∀ i, path[i]? = some i → r i = i

theorem PathOK.get {n : Nat} {path : List Nat} {r : Nat → Nat} (h : PathOK n path r) {i : Nat} (hi : i < n) :
    ∃ q, path[i]? = some q := by
  have : i < path.length := by rw [h.len]; exact hi
  exact ⟨_, List.getElem?_eq_getElem this⟩

theorem PathOK.le {n : Nat} {path : List Nat} {r : Nat → Nat} (h : PathOK n path r) {i : Nat} (hi : i < n) : i ≤ r i := by
  obtain ⟨q, hq⟩ := h.get hi
  obtain ⟨a, _, b, _⟩ := h.up i q hq
  omega

theorem PathOK.idem {n : Nat} {path : List Nat} {r : Nat → Nat} (h : PathOK n path r) :
    ∀ k i, i < n → n - i ≤ k → r (r i) = r i := by
  intro k
  induction k with
  | zero => intro i hi hk; omega
  | succ k ih =>
    intro i hi hk
    obtain ⟨q, hq⟩ := h.get hi
    obtain ⟨a, b, c, d⟩ := h.up i q hq
    by_cases hqi : q = i
    · rw [hqi] at hq
      have := h.fix i hq
      rw [this, this]
    · rw [← d]; exact ih q b (by omega)

theorem walk_spec {n : Nat} {path : List Nat} {r : Nat → Nat} (h : PathOK n path r) : ∀ fuel current jumps,
    current < n → n - current < fuel + 0 + 1 → 0 < fuel → n - current ≤ fuel →
    (∀ j ∈ jumps, j < n ∧ r j = r current ∧ j < r current) →
    ∃ jumps', walk path fuel current jumps = .ok (r current, jumps') ∧
      ∀ j ∈ jumps', j < n ∧ r j = r current ∧ j < r current := by
  intro fuel
  induction fuel with
  | zero => intro c j _ _ h0; omega
  | succ fuel ih =>
    intro current jumps hc _ _ hf hj
    obtain ⟨q, hq⟩ := h.get hc
    obtain ⟨a, b, c, d⟩ := h.up current q hq
    unfold walk
    simp only [hq]
    by_cases hne : current = q
    · subst hne
      have := h.fix current hq
      simp only [ne_eq, not_true_eq_false, if_false]
      exact ⟨jumps, by rw [this], hj⟩
    · simp only [ne_eq, hne, not_false_eq_true, if_true]
      obtain ⟨js, e1, e2⟩ := ih q (current :: jumps) b (by omega) (by omega) (by omega) (by
        intro j hj'
        rw [d]
        rcases List.mem_cons.1 hj' with rfl | hj'
        · exact ⟨hc, rfl, by omega⟩
        · exact hj j hj')
      rw [d] at e1 e2
      exact ⟨js, e1, e2⟩

theorem foldl_set_get (js : List Nat) (v : Nat) : ∀ (path : List Nat) (i : Nat), i < path.length →
    (js.foldl (fun path j => path.set j v) path)[i]? = if i ∈ js then some v else path[i]? := by
  induction js with
  | nil => intro path i _; simp
  | cons j js ih =>
    intro path i hi
    rw [List.foldl_cons, ih _ _ (by simpa using hi)]
    by_cases h1 : i ∈ js
    · simp [h1]
    · by_cases h2 : j = i
      · subst h2
        simp [h1, List.getElem?_set_self, hi]
      · have : i ≠ j := fun h => h2 h.symm
        simp [h1, this, List.getElem?_set_ne h2]

theorem foldl_set_length (js : List Nat) (v : Nat) : ∀ (path : List Nat),
    (js.foldl (fun path j => path.set j v) path).length = path.length := by
  induction js with
  | nil => intro path; rfl
  | cons j js ih => intro path; rw [List.foldl_cons, ih]; simp

theorem find_spec {n : Nat} {path : List Nat} {r : Nat → Nat} (h : PathOK n path r) {org : Nat} (ho : org < n) :
    ∃ path', find path org = .ok (r org, path') ∧ PathOK n path' r := by
  obtain ⟨js, e1, e2⟩ := walk_spec h (path.length + 1) org [] ho (by rw [h.len]; omega) (by omega)
    (by rw [h.len]; omega) (by simp)
  refine ⟨_, by simp only [find, e1, ok_bind]; rfl, ?_, h.bound, ?_, ?_⟩
  · rw [foldl_set_length, h.len]
  · intro i q hq
    have hi : i < path.length := by
      rw [← foldl_set_length js (r org)]
      exact (List.getElem?_eq_some_iff.1 hq).1
    rw [foldl_set_get _ _ _ _ hi] at hq
    split at hq
    · rename_i hm
      injection hq with hq; subst hq
      obtain ⟨a, b, c⟩ := e2 i hm
      exact ⟨c.le, h.bound org ho, b.ge, by rw [h.idem _ org ho le_rfl, b]⟩
    · exact h.up i q hq
  · intro i hq
    have hi : i < path.length := by
      rw [← foldl_set_length js (r org)]
      exact (List.getElem?_eq_some_iff.1 hq).1
    rw [foldl_set_get _ _ _ _ hi] at hq
    split at hq
    · rename_i hm
      injection hq with hq
      obtain ⟨a, b, c⟩ := e2 i hm
      omega
    · exact h.fix i hq

/-- Joining class `s` into class `d`. -/
def join (r : Nat → Nat) (s d : Nat) : Nat → Nat := fun k => if r k = s then d else r k

theorem pathOK_join {n : Nat} {path : List Nat} {r : Nat → Nat} (h : PathOK n path r) {s d : Nat}
    (hs : s < n) (hsr : r s = s) (hd : d < n) (hdr : r d = d) (hsd : s ≤ d) :
    PathOK n (path.set s d) (join r s d) := by
  refine ⟨by rw [List.length_set, h.len], ?_, ?_, ?_⟩
  · intro i hi; unfold join; split
    · exact hd
    · exact h.bound i hi
  · intro i q hq
    by_cases his : s = i
    · subst his
      rw [List.getElem?_set_self (by rw [h.len]; exact hs)] at hq
      injection hq with hq; subst hq
      have e1 : join r s d s = d := by simp [join, hsr]
      have e2 : join r s d d = d := by simp [join, hdr]
      rw [e1, e2]
      exact ⟨hsd, hd, le_rfl, rfl⟩
    · rw [List.getElem?_set_ne his] at hq
      obtain ⟨a, b, c, e⟩ := h.up i q hq
      refine ⟨a, b, ?_, ?_⟩
      · unfold join; split <;> omega
      · unfold join; rw [e]
  · intro i hq
    by_cases his : s = i
    · subst his
      rw [List.getElem?_set_self (by rw [h.len]; exact hs)] at hq
      injection hq with hq
      simp [join, hsr, hq]
    · rw [List.getElem?_set_ne his] at hq
      have := h.fix i hq
      simp only [join, this]
      rw [if_neg (fun h => his h.symm)]

/-! ### The arena -/

/-- Signals of the `i`-th non-empty constraint. -/
def sg (D : List C) (i : Nat) : List Nat := signalSet (D.getD i Constraint.empty)

/-- Two constraints share a signal. -/
def Shr (D : List C) (n i j : Nat) : Prop := i < n ∧ j < n ∧ ∃ s, s ∈ sg D i ∧ s ∈ sg D j

/-- Clusters and paths after `n` constraints. -/
structure ArenaOK (D : List C) (n : Nat) (arena : List (Option Cluster)) (path : List Nat) (r : Nat → Nat)
    (mem : Nat → List Nat) : Prop where
  path : PathOK n path r
  len : arena.length = n
  root : ∀ i, i < n → r i = i → ∃ ns, arena[i]? = some (some ⟨(mem i).map fun k => D.getD k Constraint.empty, ns⟩)
  non : ∀ i, i < n → r i ≠ i → arena[i]? = some none
  memIff : ∀ i k, i < n → (k ∈ mem i ↔ k < n ∧ r k = i)
  memNodup : ∀ i, i < n → (mem i).Nodup
  conn : ∀ j k, j < n → k < n → r j = r k → Relation.ReflTransGen (Shr D n) j k

theorem shr_symm {D : List C} {n i j : Nat} (h : Shr D n i j) : Shr D n j i := by
  obtain ⟨a, b, s, c, d⟩ := h; exact ⟨b, a, s, d, c⟩

theorem conn_symm {D : List C} {n i j : Nat} (h : Relation.ReflTransGen (Shr D n) i j) :
    Relation.ReflTransGen (Shr D n) j i := by
  induction h with
  | refl => exact Relation.ReflTransGen.refl
  | tail _ hs ih => exact Relation.ReflTransGen.head (shr_symm hs) ih

/-- The merge of the class of `src` into the newest constraint `d = n - 1`. -/
theorem arenaMerge_spec {D : List C} {n : Nat} {arena : List (Option Cluster)} {path : List Nat} {r : Nat → Nat}
    {mem : Nat → List Nat} (h : ArenaOK D n arena path r mem) {src d : Nat} (hd : d + 1 = n) (hdr : r d = d)
    (hsrc : src < n) (hshare : ∃ s, s ∈ sg D src ∧ s ∈ sg D d)
    (c0 : Cluster) (hc0 : arena[d]? = some (some c0)) (hns : 0 < c0.numSignals) :
    ∃ arena' path' mem' c0', arenaMerge arena path src d = .ok (arena', path') ∧
      ArenaOK D n arena' path' (join r (r src) d) mem' ∧ arena'[d]? = some (some c0') ∧
      c0.numSignals ≤ c0'.numSignals + 1 := by
  have hdn : d < n := by omega
  obtain ⟨p1, e1, h1⟩ := find_spec h.path hdn
  obtain ⟨p2, e2, h2⟩ := find_spec h1 hsrc
  have hsn : r src < n := h.path.bound src hsrc
  have hss : r (r src) = r src := h.path.idem _ src hsrc le_rfl
  have hsd : r src ≤ d := by omega
  have hp3 := pathOK_join h2 hsn hss hdn hdr hsd
  have hda : d < arena.length := by rw [h.len]; exact hdn
  have hsa : r src < arena.length := by rw [h.len]; exact hsn
  obtain ⟨ns0, hroot⟩ := h.root d hdn hdr
  rw [hc0] at hroot
  injection hroot with hroot
  injection hroot with hroot
  subst hroot
  -- connectivity of the joined classes
  have hconn : ∀ j k, j < n → k < n → join r (r src) d j = join r (r src) d k →
      Relation.ReflTransGen (Shr D n) j k := by
    have bridge : Relation.ReflTransGen (Shr D n) src d :=
      Relation.ReflTransGen.single ⟨hsrc, hdn, hshare⟩
    intro j k hj hk hjk
    unfold join at hjk
    by_cases h1 : r j = r src <;> by_cases h2 : r k = r src
    · exact h.conn j k hj hk (h1.trans h2.symm)
    · rw [if_pos h1, if_neg h2] at hjk
      exact ((h.conn j src hj hsrc h1).trans bridge).trans (h.conn d k hdn hk (hdr.trans hjk))
    · rw [if_neg h1, if_pos h2] at hjk
      exact ((h.conn j d hj hdn (hjk.trans hdr.symm)).trans (conn_symm bridge)).trans (h.conn src k hsrc hk h2.symm)
    · rw [if_neg h1, if_neg h2] at hjk
      exact h.conn j k hj hk hjk
  by_cases hsame : r src = d
  · -- already in the same class
    have hjoin : join r (r src) d = r := by
      funext k; unfold join; split
      · rename_i hk; rw [hk, hsame]
      · rfl
    have hnone : (arena.set d none)[r src]? = some none := by
      rw [hsame, List.getElem?_set_self hda]
    refine ⟨((arena.set d none).set (r src) none).set d (some ⟨((mem d).map fun k => D.getD k Constraint.empty) ++ [],
        ns0 + 0 - 1⟩), p2.set (r src) d, mem, ⟨((mem d).map fun k => D.getD k Constraint.empty) ++ [], ns0 + 0 - 1⟩,
      ?_, ⟨hp3, by simp [h.len], ?_, ?_, ?_, h.memNodup, hconn⟩, ?_, ?_⟩
    · unfold arenaMerge
      rw [e1, ok_bind]; simp only [hdr]
      rw [e2, ok_bind]; simp only [hc0, hnone, Option.getD_some, Option.getD_none, Cluster.merge]
      rw [if_neg (by simp only at hns ⊢; omega), ok_bind]
    · intro i hi hr
      rw [hjoin] at hr
      by_cases hid : d = i
      · subst hid
        exact ⟨ns0 + 0 - 1, by rw [List.getElem?_set_self (by simp [hda])]; simp⟩
      · obtain ⟨ns, hq⟩ := h.root i hi hr
        exact ⟨ns, by rw [List.getElem?_set_ne hid, List.getElem?_set_ne (by rw [hsame]; exact hid),
          List.getElem?_set_ne hid]; exact hq⟩
    · intro i hi hr
      rw [hjoin] at hr
      have hid : d ≠ i := by rintro rfl; exact hr hdr
      rw [List.getElem?_set_ne hid, List.getElem?_set_ne (by rw [hsame]; exact hid), List.getElem?_set_ne hid]
      exact h.non i hi hr
    · rw [hjoin]; exact h.memIff
    · rw [List.getElem?_set_self (by simp [hda])]
    · simp only; omega
  · obtain ⟨ns1, hq1⟩ := h.root (r src) hsn hss
    have hds : d ≠ r src := fun h => hsame h.symm
    have hq1' : (arena.set d none)[r src]? = some (some ⟨(mem (r src)).map fun k => D.getD k Constraint.empty, ns1⟩) := by
      rw [List.getElem?_set_ne hds]; exact hq1
    refine ⟨((arena.set d none).set (r src) none).set d (some ⟨((mem d).map fun k => D.getD k Constraint.empty) ++
        ((mem (r src)).map fun k => D.getD k Constraint.empty), ns0 + ns1 - 1⟩), p2.set (r src) d,
      (fun i => if i = d then mem d ++ mem (r src) else if i = r src then [] else mem i),
      ⟨((mem d).map fun k => D.getD k Constraint.empty) ++
        ((mem (r src)).map fun k => D.getD k Constraint.empty), ns0 + ns1 - 1⟩,
      ?_, ⟨hp3, by simp [h.len], ?_, ?_, ?_, ?_, hconn⟩, ?_, ?_⟩
    · unfold arenaMerge
      rw [e1, ok_bind]; simp only [hdr]
      rw [e2, ok_bind]; simp only [hc0, hq1', Option.getD_some, Cluster.merge]
      rw [if_neg (by simp only at hns ⊢; omega), ok_bind]
    · intro i hi hr
      by_cases hid : d = i
      · subst hid
        exact ⟨ns0 + ns1 - 1, by rw [List.getElem?_set_self (by simp [hda])]; simp⟩
      · have hir : r i ≠ r src := by
          intro hc
          rw [join, if_pos hc] at hr
          exact hid hr
        have hri : r i = i := by rw [join, if_neg hir] at hr; exact hr
        have his : r src ≠ i := by rintro rfl; exact hir hss
        obtain ⟨ns, hq⟩ := h.root i hi hri
        refine ⟨ns, ?_⟩
        rw [List.getElem?_set_ne hid, List.getElem?_set_ne his, List.getElem?_set_ne hid,
          if_neg (fun h => hid h.symm), if_neg (fun h => his h.symm)]
        exact hq
    · intro i hi hr
      have hid : d ≠ i := by
        rintro rfl; apply hr; simp [join, hdr]
      rw [List.getElem?_set_ne hid]
      by_cases his : r src = i
      · rw [← his, List.getElem?_set_self (by simp [hsa])]
      · rw [List.getElem?_set_ne his, List.getElem?_set_ne hid]
        refine h.non i hi fun hri => hr ?_
        rw [join, if_neg]
        · exact hri
        · rw [hri]; exact fun h => his h.symm
    · intro i k hi
      by_cases hid : i = d
      · subst hid
        simp only [if_true, List.mem_append, h.memIff i k hi, h.memIff (r src) k hsn, join]
        constructor
        · rintro (⟨a, b⟩ | ⟨a, b⟩)
          · exact ⟨a, by rw [b]; simp⟩
          · exact ⟨a, by rw [if_pos b]⟩
        · rintro ⟨a, b⟩
          by_cases hk : r k = r src
          · exact Or.inr ⟨a, hk⟩
          · rw [if_neg hk] at b; exact Or.inl ⟨a, b⟩
      · by_cases his : i = r src
        · subst his
          simp only [if_neg hid, if_true, List.not_mem_nil, false_iff, not_and, join]
          intro _ hk
          split at hk
          · exact hid hk.symm
          · rename_i hne; exact hne hk
        · simp only [if_neg hid, if_neg his, h.memIff i k hi, join]
          constructor
          · rintro ⟨a, b⟩
            exact ⟨a, by rw [if_neg (by rw [b]; exact his)]; exact b⟩
          · rintro ⟨a, b⟩
            split at b
            · exact absurd b.symm hid
            · exact ⟨a, b⟩
    · intro i hi
      by_cases hid : i = d
      · subst hid
        simp only [if_true]
        rw [List.nodup_append]
        refine ⟨h.memNodup i hi, h.memNodup _ hsn, ?_⟩
        intro a ha b hb hab
        subst hab
        have h1 := ((h.memIff i a hi).1 ha).2
        have h2 := ((h.memIff _ a hsn).1 hb).2
        exact hds (h1.symm.trans h2)
      · simp only [if_neg hid]
        split
        · exact List.nodup_nil
        · exact h.memNodup i hi
    · rw [List.getElem?_set_self (by simp [hda])]
    · simp only; omega

/-! ### One constraint -/

/-- The signal table; `post` are the signals of the newest constraint `d` not treated yet. -/
structure SigOK (D : List C) (n noLinear noVars d : Nat) (post : List Nat) (sig : List Nat) (r : Nat → Nat) : Prop where
  len : sig.length = noVars
  entry : ∀ s v, sig[s]? = some v → (v < noLinear → v < n ∧ s ∈ sg D v) ∧
    ∀ k, k < n → s ∈ sg D k → (k = d ∧ s ∈ post) ∨ (v < noLinear ∧ r k = r v)

theorem addSignals_spec (D : List C) (n noLinear noVars d : Nat) (hd : d + 1 = n) (hn : n ≤ noLinear) (l : List Nat) :
    ∀ (st : St) (r : Nat → Nat) (mem : Nat → List Nat) (c0 : Cluster), l.Nodup → (∀ s ∈ l, s ∈ sg D d) →
      (∀ s ∈ l, s < noVars) → ArenaOK D n st.arena st.path r mem → r d = d → SigOK D n noLinear noVars d l st.sig r →
      st.arena[d]? = some (some c0) → l.length ≤ c0.numSignals →
      (∀ s ∈ l, ∀ v, st.sig[s]? = some v → v ≠ d) →
      ∃ st' r' mem', addSignals noLinear d l st = .ok st' ∧ ArenaOK D n st'.arena st'.path r' mem' ∧
        SigOK D n noLinear noVars d [] st'.sig r' := by
  induction l with
  | nil => intro st r mem c0 _ _ _ h1 _ h3 _ _ _; exact ⟨st, r, mem, rfl, h1, h3⟩
  | cons s l ih =>
    intro st r mem c0 hnd hsg hb hA hrd hS hc0 hlen hne
    obtain ⟨hs, hnd'⟩ := List.nodup_cons.1 hnd
    have hdn : d < n := by omega
    have hsl : s < st.sig.length := by rw [hS.len]; exact hb s (by simp)
    obtain ⟨prev, hprev⟩ : ∃ v, st.sig[s]? = some v := ⟨_, List.getElem?_eq_getElem hsl⟩
    unfold addSignals
    simp only [hprev]
    obtain ⟨hv, hk⟩ := hS.entry s prev hprev
    simp only [List.length_cons] at hlen
    have hget : ∀ t, (st.sig.set s d)[t]? = if s = t then some d else st.sig[t]? := by
      intro t
      by_cases hst : s = t
      · subst hst; simp [List.getElem?_set_self, hsl]
      · simp [hst, List.getElem?_set_ne hst]
    have hne' : ∀ t ∈ l, ∀ v, (st.sig.set s d)[t]? = some v → v ≠ d := by
      intro t ht v hv'
      rw [hget, if_neg (by rintro rfl; exact hs ht)] at hv'
      exact hne t (by simp [ht]) v hv'
    by_cases hp : prev < noLinear
    · rw [if_pos hp]
      obtain ⟨hpn, hsp⟩ := hv hp
      obtain ⟨arena', path', mem', c0', a1, a2, a3, a4⟩ := arenaMerge_spec hA hd hrd hpn
        ⟨s, hsp, hsg s (by simp)⟩ c0 hc0 (by omega)
      rw [a1, ok_bind]
      have hjd : join r (r prev) d d = d := by simp [join, hrd]
      refine ih ⟨arena', path', st.sig.set s d⟩ _ mem' c0' hnd' (fun t ht => hsg t (by simp [ht]))
        (fun t ht => hb t (by simp [ht])) a2 hjd ⟨by simp [hS.len], ?_⟩ a3 (by omega) hne'
      intro t v htv
      simp only [hget] at htv
      by_cases hst : s = t
      · subst hst
        rw [if_pos rfl] at htv
        injection htv with htv; subst htv
        refine ⟨fun _ => ⟨hdn, hsg s (by simp)⟩, fun k hkn hks => Or.inr ⟨by omega, ?_⟩⟩
        rw [hjd]
        rcases hk k hkn hks with ⟨rfl, _⟩ | ⟨_, hkr⟩
        · exact hjd
        · simp [join, hkr]
      · rw [if_neg hst] at htv
        obtain ⟨u1, u2⟩ := hS.entry t v htv
        refine ⟨u1, fun k hkn hks => ?_⟩
        rcases u2 k hkn hks with ⟨rfl, hmem⟩ | ⟨x, hkr⟩
        · rcases List.mem_cons.1 hmem with h | h
          · exact absurd h.symm hst
          · exact Or.inl ⟨rfl, h⟩
        · exact Or.inr ⟨x, by simp [join, hkr]⟩
    · rw [if_neg hp]
      refine ih ⟨st.arena, st.path, st.sig.set s d⟩ r mem c0 hnd' (fun t ht => hsg t (by simp [ht]))
        (fun t ht => hb t (by simp [ht])) hA hrd ⟨by simp [hS.len], ?_⟩ hc0 (by omega) hne'
      intro t v htv
      simp only [hget] at htv
      by_cases hst : s = t
      · subst hst
        rw [if_pos rfl] at htv
        injection htv with htv; subst htv
        refine ⟨fun _ => ⟨hdn, hsg s (by simp)⟩, fun k hkn hks => Or.inr ⟨by omega, ?_⟩⟩
        rcases hk k hkn hks with ⟨rfl, _⟩ | ⟨hc, _⟩
        · rfl
        · exact absurd hc hp
      · rw [if_neg hst] at htv
        obtain ⟨u1, u2⟩ := hS.entry t v htv
        refine ⟨u1, fun k hkn hks => ?_⟩
        rcases u2 k hkn hks with ⟨rfl, hmem⟩ | h
        · rcases List.mem_cons.1 hmem with h | h
          · exact absurd h.symm hst
          · exact Or.inl ⟨rfl, h⟩
        · exact Or.inr h

/-! ### All constraints -/

theorem arenaOK_push {D : List C} {n : Nat} {arena : List (Option Cluster)} {path : List Nat} {r : Nat → Nat}
    {mem : Nat → List Nat} (h : ArenaOK D n arena path r mem) (ns : Nat) :
    ArenaOK D (n + 1) (arena ++ [some ⟨[D.getD n Constraint.empty], ns⟩]) (path ++ [n])
      (fun i => if i < n then r i else i) (fun i => if i < n then mem i else [n]) := by
  have hget : ∀ i, i < n → (arena ++ [some ⟨[D.getD n Constraint.empty], ns⟩])[i]? = arena[i]? := by
    intro i hi; rw [List.getElem?_append_left (by rw [h.len]; exact hi)]
  have hgetn : (arena ++ [some (⟨[D.getD n Constraint.empty], ns⟩ : Cluster)])[n]? =
      some (some ⟨[D.getD n Constraint.empty], ns⟩) := by
    rw [List.getElem?_append_right (by rw [h.len]), h.len]; simp
  have hpget : ∀ i, i < n → (path ++ [n])[i]? = path[i]? := by
    intro i hi; rw [List.getElem?_append_left (by rw [h.path.len]; exact hi)]
  have hpgetn : (path ++ [n])[n]? = some n := by
    rw [List.getElem?_append_right (by rw [h.path.len]), h.path.len]; simp
  refine ⟨⟨by simp [h.path.len], ?_, ?_, ?_⟩, by simp [h.len], ?_, ?_, ?_, ?_, ?_⟩
  · intro i hi
    by_cases hin : i < n
    · simp only [hin, if_true]; have := h.path.bound i hin; omega
    · simp only [hin, if_false]; omega
  · intro i q hq
    have hi : i < n + 1 := by
      have := (List.getElem?_eq_some_iff.1 hq).1
      simp only [List.length_append, List.length_singleton, h.path.len] at this; exact this
    by_cases hin : i < n
    · rw [hpget i hin] at hq
      obtain ⟨a, b, c, d⟩ := h.path.up i q hq
      simp only [hin, if_true, b]
      exact ⟨a, by omega, c, d⟩
    · have : i = n := by omega
      subst this
      rw [hpgetn] at hq
      injection hq with hq; subst hq
      simp
  · intro i hq
    have hi : i < n + 1 := by
      have := (List.getElem?_eq_some_iff.1 hq).1
      simp only [List.length_append, List.length_singleton, h.path.len] at this; exact this
    by_cases hin : i < n
    · rw [hpget i hin] at hq
      simp only [hin, if_true]; exact h.path.fix i hq
    · simp [hin]
  · intro i hi hr
    by_cases hin : i < n
    · simp only [hin, if_true] at hr ⊢
      rw [hget i hin]; exact h.root i hin hr
    · have : i = n := by omega
      subst this
      exact ⟨ns, by rw [hgetn]; simp⟩
  · intro i hi hr
    by_cases hin : i < n
    · simp only [hin, if_true] at hr
      rw [hget i hin]; exact h.non i hin hr
    · simp [hin] at hr
  · intro i k hi
    by_cases hin : i < n
    · simp only [hin, if_true, h.memIff i k hin]
      constructor
      · rintro ⟨a, b⟩; exact ⟨by omega, by rw [if_pos a]; exact b⟩
      · rintro ⟨a, b⟩
        by_cases hk : k < n
        · rw [if_pos hk] at b; exact ⟨hk, b⟩
        · rw [if_neg hk] at b; omega
    · have : i = n := by omega
      subst this
      simp only [lt_irrefl, if_false, List.mem_singleton]
      constructor
      · rintro rfl; exact ⟨by omega, by simp⟩
      · rintro ⟨a, b⟩
        by_cases hk : k < i
        · rw [if_pos hk] at b; have := h.path.bound k hk; omega
        · omega
  · intro i hi
    by_cases hin : i < n
    · simp only [hin, if_true]; exact h.memNodup i hin
    · simp [hin]
  · intro j k hj hk hjk
    have mono : ∀ {a b}, Relation.ReflTransGen (Shr D n) a b → Relation.ReflTransGen (Shr D (n + 1)) a b := by
      intro a b hab
      induction hab with
      | refl => exact Relation.ReflTransGen.refl
      | tail _ hs ih =>
        obtain ⟨h1, h2, h3⟩ := hs
        exact ih.tail ⟨by omega, by omega, h3⟩
    by_cases h1 : j < n <;> by_cases h2 : k < n
    · simp only [h1, h2, if_true] at hjk
      exact mono (h.conn j k h1 h2 hjk)
    · simp only [h1, h2, if_true, if_false] at hjk
      have := h.path.bound j h1; omega
    · simp only [h1, h2, if_true, if_false] at hjk
      have := h.path.bound k h2; omega
    · have : j = k := by omega
      rw [this]

theorem signalSet_nodup (c : C) : (signalSet c).Nodup := List.nodup_dedup _

theorem addConstraints_spec (ord : SetOrder) (hord : ord.Valid) (D : List C) (noLinear noVars : Nat) (cs : List C) :
    ∀ (n step : Nat) (st : St) (r : Nat → Nat) (mem : Nat → List Nat),
      D.drop n = cs.filter (fun c => !c.isEmpty) → n + cs.length ≤ noLinear → n ≤ D.length →
      (∀ c ∈ cs, ∀ s ∈ signalSet c, s < noVars) →
      ArenaOK D n st.arena st.path r mem → SigOK D n noLinear noVars n [] st.sig r →
      ∃ st' r' mem', addConstraints ord noLinear cs step st = .ok st' ∧ ArenaOK D D.length st'.arena st'.path r' mem' ∧
        SigOK D D.length noLinear noVars D.length [] st'.sig r' := by
  induction cs with
  | nil =>
    intro n step st r mem hD _ hn _ hA hS
    have : n = D.length := by
      have := congrArg List.length hD
      simp at this; omega
    subst this
    exact ⟨st, r, mem, rfl, hA, hS⟩
  | cons c cs ih =>
    intro n step st r mem hD hl hn hb hA hS
    unfold addConstraints
    by_cases hc : c.isEmpty = true
    · rw [if_pos hc]
      refine ih n step st r mem (by rw [hD]; simp [hc]) (by simp at hl; omega) hn (fun c' hc' => hb c' (by simp [hc'])) hA hS
    · rw [if_neg hc]
      have hc' : c.isEmpty = false := by simpa using hc
      have hD' : D.drop n = c :: cs.filter (fun c => !c.isEmpty) := by rw [hD]; simp [hc']
      have hnl : n < D.length := by
        have := congrArg List.length hD'
        simp at this; omega
      have hDn : D.getD n Constraint.empty = c := by
        have := congrArg List.head? hD'
        rw [List.head?_drop] at this
        simp only [List.head?_cons] at this
        rw [List.getD_eq_getElem?_getD, this]; rfl
      have hDrop : D.drop (n + 1) = cs.filter (fun c => !c.isEmpty) := by
        rw [← List.tail_drop, hD']; rfl
      simp only [List.length_cons] at hl
      have hperm := hord step (signalSet c)
      have hA1 := arenaOK_push hA (ord step (signalSet c)).length
      rw [hDn] at hA1
      simp only [hA.len]
      obtain ⟨st1, r1, mem1, f1, f2, f3⟩ := addSignals_spec D (n + 1) noLinear noVars n rfl (by omega)
        (ord step (signalSet c)) ⟨st.arena ++ [some ⟨[c], (ord step (signalSet c)).length⟩], st.path ++ [n], st.sig⟩ _ _
        ⟨[c], (ord step (signalSet c)).length⟩ (hperm.nodup_iff.2 (signalSet_nodup c))
        (fun s hs => by unfold sg; rw [hDn]; exact hperm.mem_iff.1 hs)
        (fun s hs => hb c (by simp) s (hperm.mem_iff.1 hs)) hA1 (by simp)
        (by
          refine ⟨hS.len, fun s v hv => ?_⟩
          obtain ⟨u1, u2⟩ := hS.entry s v hv
          refine ⟨fun h => ⟨by have := (u1 h).1; omega, (u1 h).2⟩, fun k hk hks => ?_⟩
          by_cases hkn : k < n
          · rcases u2 k hkn hks with ⟨h, _⟩ | ⟨h1, h2⟩
            · omega
            · have := (u1 h1).1
              exact Or.inr ⟨h1, by simp only [hkn, this, if_true]; exact h2⟩
          · have : k = n := by omega
            subst this
            refine Or.inl ⟨rfl, ?_⟩
            unfold sg at hks; rw [hDn] at hks
            exact hperm.mem_iff.2 hks)
        (by rw [List.getElem?_append_right (by rw [hA.len]), hA.len]; simp) le_rfl
        (by
          intro s _ v hv hvn
          obtain ⟨u1, _⟩ := hS.entry s v hv
          have := (u1 (by omega)).1
          omega)
      rw [f1, ok_bind]
      refine ih (n + 1) (step + 1) st1 r1 mem1 hDrop (by omega) (by omega) (fun c' hc' => hb c' (by simp [hc'])) f2
        ⟨f3.len, fun s v hv => ?_⟩
      obtain ⟨u1, u2⟩ := f3.entry s v hv
      refine ⟨u1, fun k hk hks => ?_⟩
      rcases u2 k hk hks with ⟨_, h⟩ | h
      · simp at h
      · exact Or.inr h

/-- The result of clustering. -/
structure Partition (cs : List C) (clusters : List (List C)) : Prop where
  perm : clusters.flatten.Perm (cs.filter fun c => !c.isEmpty)
  nonempty : ∀ A ∈ clusters, A ≠ []
  disjoint : clusters.Pairwise fun A B => ∀ a ∈ A, ∀ b ∈ B, ∀ s, s ∈ signalSet a → s ∉ signalSet b
  connected : ∀ A ∈ clusters, ∀ a ∈ A, ∀ b ∈ A,
    Relation.ReflTransGen (fun x y => x ∈ A ∧ y ∈ A ∧ ∃ s, s ∈ signalSet x ∧ s ∈ signalSet y) a b

/-- Reading the arena. -/
def ofArena (arena : List (Option Cluster)) : List Cluster := arena.filterMap fun o =>
    match o with
    | none => none
    | some c => if c.constraints.length ≠ 0 then some c else none

theorem ofArena_eq {D : List C} {n : Nat} {arena : List (Option Cluster)} {path : List Nat} {r : Nat → Nat}
    {mem : Nat → List Nat} (h : ArenaOK D n arena path r mem) :
    (ofArena arena).map Cluster.constraints =
      ((List.range n).filter fun i => decide (r i = i)).map fun i => (mem i).map fun k => D.getD k Constraint.empty := by
  have key : ∀ (m : Nat), m ≤ n → (ofArena (arena.take m)).map Cluster.constraints =
      ((List.range m).filter fun i => decide (r i = i)).map fun i => (mem i).map fun k => D.getD k Constraint.empty := by
    intro m
    induction m with
    | zero => intro _; simp [ofArena]
    | succ m ih =>
      intro hm
      have hml : m < arena.length := by rw [h.len]; omega
      have happ : ofArena (arena.take (m + 1)) = ofArena (arena.take m) ++ ofArena [arena[m]] := by
        rw [← List.take_append_getElem hml]
        unfold ofArena
        rw [List.filterMap_append]
      rw [happ, List.map_append, ih (by omega), List.range_succ, List.filter_append, List.map_append]
      congr 1
      by_cases hr : r m = m
      · obtain ⟨ns, hq⟩ := h.root m (by omega) hr
        have : arena[m] = some ⟨(mem m).map fun k => D.getD k Constraint.empty, ns⟩ := by
          rw [List.getElem?_eq_getElem hml] at hq; injection hq
        have hne : (mem m).length ≠ 0 := by
          have : m ∈ mem m := (h.memIff m m (by omega)).2 ⟨by omega, hr⟩
          exact List.length_pos_iff_exists_mem.2 ⟨m, this⟩ |>.ne'
        have e : ofArena [arena[m]] = [⟨(mem m).map fun k => D.getD k Constraint.empty, ns⟩] := by
          rw [this]
          unfold ofArena
          rw [List.filterMap_cons]
          simp [List.length_pos_iff.1 (Nat.pos_of_ne_zero hne)]
        rw [e]
        simp [hr]
      · have hq := h.non m (by omega) hr
        have : arena[m] = none := by
          rw [List.getElem?_eq_getElem hml] at hq; injection hq
        simp [ofArena, this, hr]
  have := key n le_rfl
  rwa [List.take_of_length_le (by rw [h.len])] at this

theorem buildClusters_spec (ord : SetOrder) (hord : ord.Valid) (cs : List C) (noVars : Nat)
    (hb : ∀ c ∈ cs, ∀ s ∈ signalSet c, s < noVars) :
    ∃ clusters, buildClusters ord cs noVars = .ok clusters ∧ Partition cs (clusters.map Cluster.constraints) := by
  obtain ⟨D, hDdef⟩ : ∃ D, D = cs.filter fun c => !c.isEmpty := ⟨_, rfl⟩
  obtain ⟨st, r, mem, h1, h2, h3⟩ := addConstraints_spec ord hord D cs.length noVars cs 0 0
    ⟨[], [], List.replicate noVars cs.length⟩ id (fun _ => []) (by rw [hDdef]; simp) (by omega) (by omega) hb
    ⟨⟨rfl, by simp, by simp, by simp⟩, rfl, by simp, by simp, by simp, by simp, by simp⟩
    (by
      refine ⟨by simp, fun s v hv => ⟨fun hlt => ?_, by simp⟩⟩
      have := List.getElem?_eq_some_iff.1 hv
      obtain ⟨_, hv'⟩ := this
      simp at hv'
      omega)
  refine ⟨ofArena st.arena, by simp only [buildClusters, h1, ok_bind]; rfl, ?_⟩
  rw [ofArena_eq h2]
  -- sharing a signal implies the same class
  have hshare : ∀ j k s, j < D.length → k < D.length → s ∈ sg D j → s ∈ sg D k → r j = r k := by
    intro j k s hj hk hsj hsk
    have hs : s < st.sig.length := by
      rw [h3.len]
      unfold sg at hsj
      have hmem : D.getD j Constraint.empty ∈ cs := by
        have : D.getD j Constraint.empty ∈ D := by
          rw [List.getD_eq_getElem?_getD, List.getElem?_eq_getElem hj]; simp
        have h' : ∀ x ∈ D, x ∈ cs := by
          rw [hDdef]; intro x hx; exact List.mem_of_mem_filter hx
        exact h' _ this
      exact hb _ hmem s hsj
    obtain ⟨_, u⟩ := h3.entry s _ (List.getElem?_eq_getElem hs)
    rcases u j hj hsj with ⟨_, h⟩ | ⟨_, e1⟩
    · simp at h
    rcases u k hk hsk with ⟨_, h⟩ | ⟨_, e2⟩
    · simp at h
    rw [e1, e2]
  have hroot : ∀ i, i < D.length → ∀ k, k ∈ mem i → k < D.length ∧ r k = i := fun i hi k hk => (h2.memIff i k hi).1 hk
  refine ⟨?_, ?_, ?_, ?_⟩
  · rw [← hDdef]
    have hperm : (((List.range D.length).filter fun i => decide (r i = i)).flatMap mem).Perm (List.range D.length) := by
      rw [List.perm_ext_iff_of_nodup ?_ List.nodup_range]
      · intro k
        simp only [List.mem_flatMap, List.mem_filter, List.mem_range, decide_eq_true_eq]
        constructor
        · rintro ⟨i, ⟨hi, _⟩, hk⟩; exact (hroot i hi k hk).1
        · intro hk
          exact ⟨r k, ⟨h2.path.bound k hk, h2.path.idem _ k hk le_rfl⟩, (h2.memIff _ k (h2.path.bound k hk)).2 ⟨hk, rfl⟩⟩
      · rw [List.nodup_flatMap]
        refine ⟨fun i hi => h2.memNodup i (by simpa using (List.mem_filter.1 hi).1), ?_⟩
        refine (List.nodup_range.filter _).imp_of_mem ?_
        intro a b ha hb hab
        intro k hka hkb
        have ha' : a < D.length := by simpa using (List.mem_filter.1 ha).1
        have hb' : b < D.length := by simpa using (List.mem_filter.1 hb).1
        exact hab ((hroot a ha' k hka).2.symm.trans (hroot b hb' k hkb).2)
    have hmap := hperm.map fun k => D.getD k Constraint.empty
    have hD : (List.range D.length).map (fun k => D.getD k Constraint.empty) = D := by
      apply List.ext_getElem (by simp)
      intro i h1 h2
      simp [List.getD_eq_getElem?_getD, List.getElem?_eq_getElem h2]
    rw [hD] at hmap
    rw [← List.flatMap_def, ← List.map_flatMap]
    exact hmap
  · intro A hA
    obtain ⟨i, hi, rfl⟩ := List.mem_map.1 hA
    obtain ⟨hi1, hi2⟩ := List.mem_filter.1 hi
    have hi1 : i < D.length := by simpa using hi1
    have hi2 : r i = i := by simpa using hi2
    have : i ∈ mem i := (h2.memIff i i hi1).2 ⟨hi1, hi2⟩
    intro hnil
    have := List.map_eq_nil_iff.1 hnil
    simp_all
  · refine List.pairwise_map.2 ((List.nodup_range.filter _).imp_of_mem ?_)
    intro i j hi hj hij a ha b hb s hsa hsb
    have hi1 : i < D.length := by simpa using (List.mem_filter.1 hi).1
    have hj1 : j < D.length := by simpa using (List.mem_filter.1 hj).1
    obtain ⟨ka, hka, rfl⟩ := List.mem_map.1 ha
    obtain ⟨kb, hkb, rfl⟩ := List.mem_map.1 hb
    obtain ⟨a1, a2⟩ := hroot i hi1 ka hka
    obtain ⟨b1, b2⟩ := hroot j hj1 kb hkb
    exact hij (a2.symm.trans ((hshare ka kb s a1 b1 hsa hsb).trans b2))
  · intro A hA a ha b hb
    obtain ⟨i, hi, rfl⟩ := List.mem_map.1 hA
    have hi1 : i < D.length := by simpa using (List.mem_filter.1 hi).1
    obtain ⟨ka, hka, rfl⟩ := List.mem_map.1 ha
    obtain ⟨kb, hkb, rfl⟩ := List.mem_map.1 hb
    obtain ⟨a1, a2⟩ := hroot i hi1 ka hka
    obtain ⟨b1, b2⟩ := hroot i hi1 kb hkb
    have hc := h2.conn ka kb a1 b1 (a2.trans b2.symm)
    have gen : ∀ x, Relation.ReflTransGen (Shr D D.length) ka x → r x = i ∧ x < D.length ∧
        Relation.ReflTransGen (fun x y => x ∈ (mem i).map (fun k => D.getD k Constraint.empty) ∧
          y ∈ (mem i).map (fun k => D.getD k Constraint.empty) ∧ ∃ s, s ∈ signalSet x ∧ s ∈ signalSet y)
          (D.getD ka Constraint.empty) (D.getD x Constraint.empty) := by
      intro x hx
      induction hx with
      | refl => exact ⟨a2, a1, Relation.ReflTransGen.refl⟩
      | tail _ hstep ih =>
        rename_i y z _
        obtain ⟨e1, e2, e3⟩ := ih
        obtain ⟨f1, f2, s, f3, f4⟩ := hstep
        have hz : r z = i := (hshare y z s f1 f2 f3 f4).symm.trans e1
        refine ⟨hz, f2, e3.tail ⟨List.mem_map.2 ⟨y, (h2.memIff i y hi1).2 ⟨f1, e1⟩, rfl⟩,
          List.mem_map.2 ⟨z, (h2.memIff i z hi1).2 ⟨f2, hz⟩, rfl⟩, s, f3, f4⟩⟩
    exact (gen kb hc).2.2

end Verif.Clusters
