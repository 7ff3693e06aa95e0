import Verif.Linear4Process

/-! From the elimination states of both heuristics to the returned `Simplified`. -/

set_option linter.unusedSectionVars false
set_option linter.unusedSimpArgs false

namespace Verif.Linear
open Verif.ModArith (Res Fail)
open Verif.Algebra Verif.Props.Algebra

variable {p : Nat}

/-- Everything known about a result. -/
structure Elim (p : Nat) (forb : List Nat) (cs : List C) (out : Simplified) : Prop where
  equiv : ∀ ρ : Nat → ZMod p, ρ 0 = 1 →
    ((∀ c ∈ cs, c.Holds ρ) ↔ (∀ c ∈ out.constraints, c.Holds ρ) ∧ ∀ s ∈ out.substitutions, s.Holds ρ)
  removed : out.removed = out.substitutions.map fun s => s.frm
  nodup : out.removed.Nodup
  prot : ∀ s ∈ out.removed, s ∉ forb
  disjoint : ∀ s ∈ out.removed, ∀ t ∈ out.substitutions, s ∉ t.rhs.keys
  consts : ∀ c ∈ out.constraints, ∀ x ∈ c.c.keys, x ∈ forb
  clean : ∀ c ∈ out.constraints, LinClean p c
  wf : ∀ t ∈ out.substitutions, t.rhs.WF ∧ CanonMap p t.rhs
  noNew : ∀ x, ((∃ c ∈ out.constraints, x ∈ c.c.keys) ∨ (∃ t ∈ out.substitutions, x = t.frm ∨ x ∈ t.rhs.keys)) →
    x = 0 ∨ ∃ c ∈ cs, x ∈ c.c.keys

theorem forall₂_exists_right {α β : Type} {R : α → β → Prop} {l : List α} {m : List β} (h : List.Forall₂ R l m) :
    ∀ a ∈ l, ∃ b ∈ m, R a b := by
  induction h with
  | nil => simp
  | cons h _ ih =>
    intro a ha
    rcases List.mem_cons.1 ha with rfl | ha
    · exact ⟨_, by simp, h⟩
    · obtain ⟨b, hb, hr⟩ := ih a ha; exact ⟨b, by simp [hb], hr⟩

theorem forall₂_exists_left {α β : Type} {R : α → β → Prop} {l : List α} {m : List β} (h : List.Forall₂ R l m) :
    ∀ b ∈ m, ∃ a ∈ l, R a b := by
  induction h with
  | nil => simp
  | cons h _ ih =>
    intro b hb
    rcases List.mem_cons.1 hb with rfl | hb
    · exact ⟨_, by simp, h⟩
    · obtain ⟨a, ha, hr⟩ := ih b hb; exact ⟨a, by simp [ha], hr⟩

theorem forall₂_keys {tree : SH} {subs : SHN} (h : List.Forall₂ (NormOf p) tree subs) : BMap.keys tree = BMap.keys subs := by
  induction h with
  | nil => rfl
  | cons h _ ih => simp only [BMap.keys_cons, ih, h.key]

theorem sorted_of_keys {V W : Type} {m : BMap V} {n : BMap W} (h : BMap.keys m = BMap.keys n) (hs : BMap.Sorted n) :
    BMap.Sorted m := by
  have h1 : (BMap.keys n).Pairwise (· < ·) := List.pairwise_map.2 hs
  rw [← h] at h1
  exact List.pairwise_map.1 h1

theorem elim_of_list (hp : p.Prime) (ord : HashOrder) (hord : ord.Valid) (forb : List Nat) (h0 : 0 ∈ forb)
    (cs lconst : List C) (subs : SHN) (hgood : ∀ e ∈ subs, GoodEntry p forb e)
    (hclean : ∀ c ∈ lconst, LinClean p c) (hrest : ∀ c ∈ lconst, ∀ x ∈ c.c.keys, canTake forb x = false)
    (hsat : ∀ ρ : Nat → ZMod p, ρ 0 = 1 → (Sat ρ subs lconst ↔ ∀ c ∈ cs, c.Holds ρ))
    (hm : ∀ x, Mentions subs lconst x → x = 0 ∨ ∃ c ∈ cs, x ∈ c.c.keys)
    (tree : SH) (ht : List.Forall₂ (NormOf p) tree subs)
    (L : List (Nat × S)) (hLnd : (L.map Prod.fst).Nodup) (hLt : ∀ e, e ∈ L ↔ e ∈ tree)
    (hpw : L.Pairwise fun x y => y.1 ∉ x.2.rhs.keys) (step : Nat) :
    Elim p forb cs (finish lconst (nonoverlap ord p step [] L)) := by
  have hct0 : canTake forb 0 = false := by simp [canTake, h0]
  have hgS : ∀ e ∈ L, GoodS p e ∧ e.1 ∉ e.2.rhs.keys ∧ e.1 ∉ forb := by
    intro e he
    obtain ⟨b, hb, hn⟩ := forall₂_exists_right ht e ((hLt e).1 he)
    have hg := hgood b hb
    refine ⟨⟨by rw [hn.frm, hn.key], ?_, hn.rhs.valid.1, hn.rhs.canon⟩, ?_, ?_⟩
    · rw [hn.key]; intro h; have := hg.take; rw [h, hct0] at this; cases this
    · rw [hn.keys, hn.key]; exact hg.self
    · rw [hn.key]; have := hg.take; simpa [canTake] using this
  obtain ⟨r1, r2, r3, r4, r5⟩ := nonoverlap_spec hp.pos ord hord L step [] (by simpa using fun e he => (hgS e he).1)
    (by simp) (fun e he => (hgS e he).2.1) hpw
  simp only [List.map_nil, List.nil_append] at r1 r2 r3 r4 r5
  generalize nonoverlap ord p step [] L = R at r1 r2 r3 r4 r5
  have hsubs : ∀ ρ : Nat → ZMod p, ρ 0 = 1 → ((∀ e ∈ L, e.2.Holds ρ) ↔ ∀ e ∈ subs, EntryHolds ρ e) := by
    intro ρ hρ
    constructor
    · intro h e he
      obtain ⟨a, ha, hn⟩ := forall₂_exists_left ht e he
      exact (hn.holds ρ hρ).1 (h a ((hLt a).2 ha))
    · intro h e he
      obtain ⟨b, hb, hn⟩ := forall₂_exists_right ht e ((hLt e).1 he)
      exact (hn.holds ρ hρ).2 (h b hb)
  have hkey : ∀ x ∈ R.map Prod.fst, ∃ e ∈ subs, x = e.1 := by
    intro x hx
    rw [r1] at hx
    obtain ⟨e, he, rfl⟩ := List.mem_map.1 hx
    obtain ⟨b, hb, hn⟩ := forall₂_exists_right ht e ((hLt e).1 he)
    exact ⟨b, hb, hn.key⟩
  refine ⟨fun ρ hρ => ?_, ?_, ?_, ?_, ?_, ?_, hclean, ?_, ?_⟩
  · rw [← hsat ρ hρ]
    simp only [finish, List.mem_map, forall_exists_index, and_imp, forall_apply_eq_imp_iff₂, Sat]
    rw [r5 ρ, hsubs ρ hρ]
    exact and_comm
  · simp only [finish, List.map_map]
    exact List.map_congr_left fun r hr => (r2 r hr).frm.symm
  · simp only [finish, r1]; exact hLnd
  · intro s hs'
    obtain ⟨e, he, rfl⟩ := hkey s hs'
    have := (hgood e he).take
    simpa [canTake] using this
  · intro s hs' t ht'
    simp only [finish] at hs' ht'
    obtain ⟨r', hr', rfl⟩ := List.mem_map.1 hs'
    obtain ⟨r, hr, rfl⟩ := List.mem_map.1 ht'
    exact r3 r hr r' hr'
  · intro c hc x hx
    have := hrest c hc x hx
    simpa [canTake] using this
  · intro t ht'
    obtain ⟨r, hr, rfl⟩ := List.mem_map.1 ht'
    exact ⟨(r2 r hr).wf, (r2 r hr).canon⟩
  · rintro x (⟨c, hc, hx⟩ | ⟨t, ht', hx⟩)
    · exact hm x (Or.inr ⟨c, hc, hx⟩)
    · obtain ⟨r, hr, rfl⟩ := List.mem_map.1 ht'
      rcases hx with rfl | hx
      · rw [(r2 r hr).frm]
        obtain ⟨e, he, h⟩ := hkey r.1 (List.mem_map.2 ⟨r, hr, rfl⟩)
        exact hm r.1 (Or.inl ⟨e, he, Or.inl h⟩)
      · rcases r4 r hr x hx with h | ⟨e, he, h⟩
        · exact Or.inl h
        · obtain ⟨b, hb, hn⟩ := forall₂_exists_right ht e ((hLt e).1 he)
          exact hm x (Or.inl ⟨b, hb, Or.inr (hn.keys ▸ h)⟩)

theorem simplify3_elim (hp : p.Prime) (ord : HashOrder) (hord : ord.Valid) (forb : List Nat) (h0 : 0 ∈ forb)
    (cs : List C) (hcs : ∀ c ∈ cs, LinClean p c) (fuel : Nat) (hf : 0 < fuel)
    (hb : ∀ c ∈ cs, ∀ x ∈ c.c.keys, canTake forb x = true → x + 1 < fuel) :
    ∃ out, simplify3 ord forb p fuel cs = .ok out ∧ Elim p forb cs out := by
  obtain ⟨st, h1, h2, h3, h4⟩ := process3_spec hp ord hord forb h0 cs hcs fuel hf hb
  obtain ⟨tree, t1, t2⟩ := normalize_spec hp st.subs
    (fun e he => ⟨(h2.good e he).rhs, (h2.good e he).self, (h2.good e he).co⟩)
  have hkeys := forall₂_keys t2
  have hsorted : BMap.Sorted tree := sorted_of_keys hkeys h2.sorted
  refine ⟨_, by simp only [simplify3, h1, ok_bind, t1]; rfl, ?_⟩
  refine elim_of_list hp ord hord forb h0 cs st.lconst st.subs h2.good h2.clean h2.rest h3 h4 tree t2 tree
    (BMap.nodup_keys hsorted) (fun _ => Iff.rfl) ?_ _
  have hlt : tree.Pairwise fun x y => x.1 < y.1 := hsorted
  refine hlt.imp_of_mem ?_
  intro x y hx hy hxy hin
  obtain ⟨b, hb', hn⟩ := forall₂_exists_right t2 x hx
  obtain ⟨b', hb'', hn'⟩ := forall₂_exists_right t2 y hy
  rw [hn.keys] at hin
  have := h2.below b hb' y.1 hin (by rw [hn'.key]; exact (h2.good b' hb'').take)
  rw [hn.key] at hxy
  omega

theorem simplify4_elim (hp : p.Prime) (ord : HashOrder) (hord : ord.Valid) (forb : List Nat) (h0 : 0 ∈ forb)
    (cs : List C) (hcs : ∀ c ∈ cs, LinClean p c) (fuel : Nat) (hf : 2 ^ (allSignals cs).length ≤ fuel) :
    ∃ out, simplify4 ord forb p fuel cs = .ok out ∧ Elim p forb cs out := by
  obtain ⟨st, h1, h2, h3, h4⟩ := process4_spec hp ord hord forb h0 cs hcs fuel hf
  obtain ⟨tree, t1, t2⟩ := normalize_spec hp st.subs
    (fun e he => ⟨(h2.good e he).rhs, (h2.good e he).self, (h2.good e he).co⟩)
  have hkeys := forall₂_keys t2
  have hsorted : BMap.Sorted tree := sorted_of_keys hkeys h2.sorted
  obtain ⟨L, l1, l2, l3⟩ := inOrder_spec st.order tree hsorted h2.nodup (fun s hs => by
    rw [hkeys]; exact (h2.keysEq s).1 hs)
  refine ⟨_, by simp only [simplify4, h1, ok_bind, t1, l1]; rfl, ?_⟩
  refine elim_of_list hp ord hord forb h0 cs st.lconst st.subs h2.good h2.clean h2.rest h3 h4 tree t2 L
    (by rw [l2]; exact h2.nodup) ?_ ?_ _
  · intro e
    refine ⟨l3 e, fun he => ?_⟩
    have hk : e.1 ∈ L.map Prod.fst := by
      rw [l2, h2.keysEq, ← hkeys]
      exact List.mem_map.2 ⟨e, he, rfl⟩
    obtain ⟨e', he', heq⟩ := List.mem_map.1 hk
    have h5 := BMap.get_of_mem hsorted (l3 e' he')
    have h6 := BMap.get_of_mem hsorted he
    rw [heq, h6] at h5
    injection h5 with h5
    have : e' = e := Prod.ext heq h5.symm
    exact this ▸ he'
  · have hpw : (L.map Prod.fst).Pairwise fun x y => ∀ e ∈ st.subs, e.1 = x → y ∉ e.2.2.rhs.keys := by
      rw [l2]; exact h2.ordered
    refine (List.pairwise_map.1 hpw).imp_of_mem ?_
    intro x y hx _ hxy
    obtain ⟨b, hb, hn⟩ := forall₂_exists_right t2 x (l3 x hx)
    rw [hn.keys]
    exact hxy b hb hn.key.symm

/-! ### Fuel -/

theorem simplify3_mono (ord : HashOrder) (forb : List Nat) (f : Int) (n : Nat) (cs : List C) (out : Simplified)
    (h : simplify3 ord forb f n cs = .ok out) : simplify3 ord forb f (n + 1) cs = .ok out := by
  unfold simplify3 process3 at h ⊢
  obtain ⟨st, h1, h2⟩ := (bind_ok_iff _ _ _).1 h
  rw [foldlM_treat3_mono _ _ _ _ _ _ _ h1, ok_bind]
  exact h2

theorem simplify4_mono (ord : HashOrder) (forb : List Nat) (f : Int) (n : Nat) (cs : List C) (out : Simplified)
    (h : simplify4 ord forb f n cs = .ok out) : simplify4 ord forb f (n + 1) cs = .ok out := by
  unfold simplify4 process4 at h ⊢
  obtain ⟨st, h1, h2⟩ := (bind_ok_iff _ _ _).1 h
  obtain ⟨⟨occ, u⟩, h3, h4⟩ := (bind_ok_iff _ _ _).1 h1
  obtain ⟨⟨vec, s⟩, h5, h6⟩ := (bind_ok_iff _ _ _).1 h4
  simp only [h3, ok_bind, h5, rest4_mono _ _ _ _ _ _ _ h6]
  exact h2

theorem fullSimplification_mono (ord : HashOrder) (forb : List Nat) (f : Int) (old : Bool) (n k : Nat) (cs : List C)
    (out : Simplified) (h : fullSimplification ord forb f old n cs = .ok out) :
    fullSimplification ord forb f old (n + k) cs = .ok out := by
  induction k with
  | zero => exact h
  | succ k ih =>
    rw [← Nat.add_assoc]
    unfold fullSimplification at ih ⊢
    split
    · rename_i hc; rw [if_pos hc] at ih; exact simplify4_mono _ _ _ _ _ _ ih
    · rename_i hc; rw [if_neg hc] at ih; exact simplify3_mono _ _ _ _ _ _ ih

/-- Sufficient fuel. -/
def enough (cs : List C) : Nat := 2 ^ (allSignals cs).length + (allSignals cs).sum + 2

theorem mem_le_sum (l : List Nat) (x : Nat) (h : x ∈ l) : x ≤ l.sum := by
  induction l with
  | nil => simp at h
  | cons y l ih =>
    rcases List.mem_cons.1 h with rfl | h
    · simp
    · have := ih h; simp; omega

theorem full_elim (hp : p.Prime) (ord : HashOrder) (hord : ord.Valid) (forb : List Nat) (h0 : 0 ∈ forb) (old : Bool)
    (cs : List C) (hcs : ∀ c ∈ cs, LinClean p c) :
    ∃ out, (∀ fuel, enough cs ≤ fuel → fullSimplification ord forb p old fuel cs = .ok out) ∧ Elim p forb cs out := by
  have key : ∃ out, fullSimplification ord forb p old (enough cs) cs = .ok out ∧ Elim p forb cs out := by
    unfold fullSimplification
    split
    · exact simplify4_elim hp ord hord forb h0 cs hcs _ (by unfold enough; omega)
    · refine simplify3_elim hp ord hord forb h0 cs hcs _ (by unfold enough; exact Nat.succ_pos _) ?_
      intro c hc x hx _
      have := mem_le_sum (allSignals cs) x (List.mem_flatMap.2 ⟨c, hc, hx⟩)
      have : 0 < 2 ^ (allSignals cs).length := Nat.pow_pos (by decide)
      unfold enough; omega
  obtain ⟨out, h1, h2⟩ := key
  refine ⟨out, fun fuel hf => ?_, h2⟩
  obtain ⟨k, rfl⟩ := Nat.exists_eq_add_of_le hf
  exact fullSimplification_mono _ _ _ _ _ _ _ _ h1

theorem full_elim_of_ok (hp : p.Prime) (ord : HashOrder) (hord : ord.Valid) (forb : List Nat) (h0 : 0 ∈ forb) (old : Bool)
    (cs : List C) (hcs : ∀ c ∈ cs, LinClean p c) (fuel : Nat) (out : Simplified)
    (h : fullSimplification ord forb p old fuel cs = .ok out) : Elim p forb cs out := by
  obtain ⟨out', h1, h2⟩ := full_elim hp ord hord forb h0 old cs hcs
  have h3 := fullSimplification_mono _ _ _ _ _ (enough cs) _ _ h
  rw [h1 _ (by omega)] at h3
  injection h3 with h3
  exact h3 ▸ h2

theorem simplify4_elim_of_ok (hp : p.Prime) (ord : HashOrder) (hord : ord.Valid) (forb : List Nat) (h0 : 0 ∈ forb)
    (cs : List C) (hcs : ∀ c ∈ cs, LinClean p c) (fuel : Nat) (out : Simplified)
    (h : simplify4 ord forb p fuel cs = .ok out) : Elim p forb cs out := by
  have mono : ∀ k, simplify4 ord forb p (fuel + k) cs = .ok out := by
    intro k
    induction k with
    | zero => exact h
    | succ k ih => exact simplify4_mono _ _ _ _ _ _ ih
  obtain ⟨out', h1, h2⟩ := simplify4_elim hp ord hord forb h0 cs hcs (fuel + 2 ^ (allSignals cs).length) (by omega)
  rw [mono] at h1
  injection h1 with h1
  exact h1 ▸ h2

theorem simplify3_elim_of_ok (hp : p.Prime) (ord : HashOrder) (hord : ord.Valid) (forb : List Nat) (h0 : 0 ∈ forb)
    (cs : List C) (hcs : ∀ c ∈ cs, LinClean p c) (fuel : Nat) (out : Simplified)
    (h : simplify3 ord forb p fuel cs = .ok out) : Elim p forb cs out := by
  have mono : ∀ k, simplify3 ord forb p (fuel + k) cs = .ok out := by
    intro k
    induction k with
    | zero => exact h
    | succ k ih => exact simplify3_mono _ _ _ _ _ _ ih
  obtain ⟨out', h1, h2⟩ := simplify3_elim hp ord hord forb h0 cs hcs (fuel + (2 + (allSignals cs).sum)) (by omega) (by
      intro c hc x hx _
      have := mem_le_sum (allSignals cs) x (List.mem_flatMap.2 ⟨c, hc, hx⟩)
      omega)
  rw [mono] at h1
  injection h1 with h1
  exact h1 ▸ h2

end Verif.Linear
