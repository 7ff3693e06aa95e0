import Verif.LinearLemmas

/-! Normalisation and composition of substitutions. -/

set_option linter.unusedSectionVars false

namespace Verif.Linear
open Verif.ModArith (Res Fail)
open Verif.Algebra Verif.Props.Algebra

variable {p : Nat}

/-- Invariant of the entries of the not-normalised holder. -/
structure GoodEntry (p : Nat) (forbidden : List Nat) (e : Nat × (Int × S)) : Prop where
  frm : e.2.2.frm = e.1
  co : (e.2.1 : ZMod p) ≠ 0
  rhs : Rhs p e.2.2.rhs
  self : e.1 ∉ e.2.2.rhs.keys
  take : canTake forbidden e.1 = true

/-- Meaning of a not-normalised entry. -/
def EntryHolds (ρ : Nat → ZMod p) (e : Nat × (Int × S)) : Prop := (e.2.1 : ZMod p) * ρ e.1 = ev ρ e.2.2.rhs

/-- Relation between a normalised substitution and its not-normalised source. -/
structure NormOf (p : Nat) (t : Nat × S) (e : Nat × (Int × S)) : Prop where
  key : t.1 = e.1
  frm : t.2.frm = e.1
  rhs : Rhs p t.2.rhs
  keys : t.2.rhs.keys = e.2.2.rhs.keys
  holds : ∀ ρ : Nat → ZMod p, ρ 0 = 1 → (t.2.Holds ρ ↔ EntryHolds ρ e)

theorem normalizeAux_spec (hp : 0 < p) (subs : SHN) : ∀ (invs tail : List Int),
    (∀ e ∈ subs, Rhs p e.2.2.rhs ∧ e.1 ∉ e.2.2.rhs.keys) →
    List.Forall₂ (fun (o : Int) (e : Nat × (Int × S)) => (o : ZMod p) * (e.2.1 : ZMod p) = 1) invs subs →
    ∃ tree, normalizeAux p subs (invs ++ tail) = .ok tree ∧ List.Forall₂ (NormOf p) tree subs := by
  induction subs with
  | nil => intro invs tail _ _; exact ⟨[], rfl, List.Forall₂.nil⟩
  | cons e subs ih =>
    intro invs tail hg hf
    obtain ⟨s, co, sub⟩ := e
    cases hf with
    | @cons inv _ invs _ h1 h2 =>
      obtain ⟨tree, ht, hF⟩ := ih invs tail (fun e he => hg e (by simp [he])) h2
      obtain ⟨hr, hself⟩ := hg (s, co, sub) (by simp)
      simp only at h1 hr hself
      have hunit : ∀ x y : ZMod p, (x = y * (inv : ZMod p) ↔ (co : ZMod p) * x = y) := by
        intro x y
        constructor
        · rintro rfl; linear_combination y * h1
        · rintro rfl; linear_combination -x * h1
      have key : ∃ t, Substitution.new s (Algebra.mul (mapIntoArith sub.rhs) (.number inv) p) = some t ∧
          NormOf p (s, t) (s, co, sub) := by
        rcases linE_mapIntoArith hr (fun _ => True) (fun x _ => Or.inr trivial) with ⟨v, hm, he⟩ | he
        · rw [he]
          refine ⟨_, rfl, rfl, rfl, ⟨⟨?_, ?_⟩, ?_⟩, ?_, ?_⟩
          · simp [CMap.WF, CMap.keys]
          · simp [CMap.contains, CMap.get]
          · intro e he; simp only [List.mem_singleton] at he; subst he; exact mod_range hp _
          · simp [hm, CMap.keys]
          · intro ρ hρ
            unfold Substitution.Holds EntryHolds
            simp only
            rw [hm, ev_cons, ev_nil, ev_cons, ev_nil, ← hunit]
            rw [ModArith.mul_cast _ _ _ hp]
            show _ = _ * ρ 0 + 0 ↔ _ = (_ * ρ 0 + 0) * _
            rw [hρ]
            constructor <;> (intro h; rw [h]; ring)
        · rw [he]
          have hnot : (mulCoefs inv sub.rhs p).contains s = false := by
            rw [← Bool.not_eq_true, CMap.contains_iff, keys_mulCoefs]; exact hself
          refine ⟨⟨s, mulCoefs inv sub.rhs p⟩, by simp [Algebra.mul, Substitution.new, hnot], rfl, rfl,
            ⟨validMap_mulCoefs hr.valid _ _, canon_mulCoefs hp _ _⟩, keys_mulCoefs _ _ _, ?_⟩
          intro ρ hρ
          unfold Substitution.Holds EntryHolds
          simp only
          rw [ev_mulCoefs hp, ← hunit, mul_comm]
      obtain ⟨t, htn, hN⟩ := key
      refine ⟨(s, t) :: tree, ?_, List.Forall₂.cons hN hF⟩
      simp only [List.cons_append, normalizeAux, htn, ht, ok_bind]

theorem normalize_spec (hp : p.Prime) (subs : SHN)
    (hg : ∀ e ∈ subs, Rhs p e.2.2.rhs ∧ e.1 ∉ e.2.2.rhs.keys ∧ (e.2.1 : ZMod p) ≠ 0) :
    ∃ tree, normalize subs p = .ok tree ∧ List.Forall₂ (NormOf p) tree subs := by
  have : Fact p.Prime := ⟨hp⟩
  obtain ⟨outs, h1, h2⟩ := Props.ModArith.C10_multi_inv (subs.map fun e => e.2.1) p hp.pos (by
    intro v hv
    obtain ⟨e, he, rfl⟩ := List.mem_map.1 hv
    exact isUnit_iff_ne_zero.2 (hg e he).2.2)
  unfold normalize
  rw [h1, ok_bind]
  refine normalizeAux_spec hp.pos subs outs [0] (fun e he => ⟨(hg e he).1, (hg e he).2.1⟩) ?_
  rw [List.forall₂_map_right_iff] at h2
  exact h2.imp fun _ _ h => h.1

/-! ### Composition -/

theorem foldl_apply_spec (hp : 0 < p) (T : List S) (acc : S) (hw : acc.rhs.WF) (hc : CanonMap p acc.rhs)
    (hT : ∀ t ∈ T, t.frm ≠ 0 ∧ ∀ t' ∈ T, t'.frm ∉ t.rhs.keys) :
    let r := T.foldl (fun acc sub => acc.applySubstitution sub p) acc
    r.frm = acc.frm ∧ r.rhs.WF ∧ CanonMap p r.rhs ∧
    (∀ x ∈ r.rhs.keys, x = 0 ∨ (x ∈ acc.rhs.keys ∧ ∀ t ∈ T, x ≠ t.frm) ∨ ∃ t ∈ T, x ∈ t.rhs.keys) ∧
    ∀ ρ : Nat → ZMod p, (∀ t ∈ T, t.Holds ρ) → ev ρ r.rhs = ev ρ acc.rhs := by
  induction T generalizing acc with
  | nil => exact ⟨rfl, hw, hc, fun x hx => Or.inr (Or.inl ⟨hx, by simp⟩), fun _ _ => rfl⟩
  | cons t T ih =>
    have ht := hT t (by simp)
    have ih' := ih (acc.applySubstitution t p) (wf_rawSubstitution hw _ _) (canon_rawSubstitution hp hc _)
      (fun t' h' => ⟨(hT t' (by simp [h'])).1, fun t'' h'' => (hT t' (by simp [h'])).2 t'' (by simp [h''])⟩)
    obtain ⟨h1, h2, h3, h4, h5⟩ := ih'
    refine ⟨h1, h2, h3, ?_, ?_⟩
    · intro x hx
      rcases h4 x hx with h | ⟨h, hne⟩ | ⟨t', ht', hx'⟩
      · exact Or.inl h
      · have hm := (mem_keys_rawSubstitution _ _ _ _).1 h
        have fin : x ≠ t.frm → x ∈ acc.rhs.keys → x = 0 ∨ (x ∈ acc.rhs.keys ∧ ∀ t' ∈ t :: T, x ≠ t'.frm) ∨
            ∃ t' ∈ t :: T, x ∈ t'.rhs.keys := by
          intro h1 h2
          refine Or.inr (Or.inl ⟨h2, fun t' ht' => ?_⟩)
          rcases List.mem_cons.1 ht' with rfl | ht'
          · exact h1
          · exact hne t' ht'
        split at hm
        · rcases hm with ⟨hm1, hm2 | hm2⟩ | hm | hm
          · exact Or.inl hm2
          · exact fin hm1 hm2
          · exact Or.inl hm
          · exact Or.inr (Or.inr ⟨t, by simp, hm⟩)
        · rename_i hcond
          rcases hm with hm | hm
          · exact Or.inl hm
          · exact fin (fun he => hcond (Or.inr (he ▸ hm))) hm
      · exact Or.inr (Or.inr ⟨t', by simp [ht'], hx'⟩)
    · intro ρ hρ
      show ev ρ (T.foldl _ (acc.applySubstitution t p)).rhs = _
      rw [h5 ρ (fun t' h' => hρ t' (by simp [h']))]
      show ev ρ (rawSubstitution acc.rhs t p) = _
      rw [C14_value hp _ hw t ht.1]
      have := hρ t (by simp)
      unfold Substitution.Holds at this
      rw [← this, Function.update_eq_self]

/-- Shape of a substitution entry used by the composition step. -/
structure GoodS (p : Nat) (t : Nat × S) : Prop where
  frm : t.2.frm = t.1
  ne : t.1 ≠ 0
  wf : t.2.rhs.WF
  canon : CanonMap p t.2.rhs

theorem toBeApplied_mem {D : List (Nat × S)} {keys : List Nat} {t : S} (h : t ∈ toBeApplied D keys) :
    ∃ k ∈ keys, (k, t) ∈ D := by
  obtain ⟨k, hk, hg⟩ := List.mem_filterMap.1 h
  exact ⟨k, hk, BMap.get_mem hg⟩

theorem toBeApplied_covers {D : List (Nat × S)} {keys : List Nat} {k : Nat} (hk : k ∈ keys)
    (hD : k ∈ BMap.keys D) : ∃ t ∈ toBeApplied D keys, (k, t) ∈ D := by
  obtain ⟨t, ht⟩ := Option.isSome_iff_exists.1 ((BMap.get_isSome_iff D k).2 hD)
  exact ⟨t, List.mem_filterMap.2 ⟨k, hk, ht⟩, BMap.get_mem ht⟩

theorem nonoverlap_spec (hp : 0 < p) (ord : HashOrder) (hord : ord.Valid) (L : List (Nat × S)) :
    ∀ (step : Nat) (D : List (Nat × S)),
    (∀ d ∈ D ++ L, GoodS p d) →
    (∀ d ∈ D, ∀ e ∈ D ++ L, e.1 ∉ d.2.rhs.keys) →
    (∀ e ∈ L, e.1 ∉ e.2.rhs.keys) →
    L.Pairwise (fun x y => y.1 ∉ x.2.rhs.keys) →
    let R := nonoverlap ord p step D L
    R.map Prod.fst = D.map Prod.fst ++ L.map Prod.fst ∧
    (∀ r ∈ R, GoodS p r) ∧
    (∀ r ∈ R, ∀ r' ∈ R, r'.1 ∉ r.2.rhs.keys) ∧
    (∀ r ∈ R, ∀ x ∈ r.2.rhs.keys, x = 0 ∨ ∃ e ∈ D ++ L, x ∈ e.2.rhs.keys) ∧
    ∀ ρ : Nat → ZMod p, (∀ r ∈ R, r.2.Holds ρ) ↔ ∀ e ∈ D ++ L, e.2.Holds ρ := by
  induction L with
  | nil =>
    intro step D h1 h2 _ _
    simp only [List.append_nil] at h1 h2
    simp only [nonoverlap, List.map_nil, List.append_nil]
    exact ⟨trivial, h1, h2, fun r hr x hx => Or.inr ⟨r, hr, hx⟩, fun _ => trivial⟩
  | cons e L ih =>
    intro step D h1 h2 h3 h4
    obtain ⟨s, sub⟩ := e
    have hD : ∀ d ∈ D, GoodS p d := fun d hd => h1 d (by simp [hd])
    have hs := h1 (s, sub) (by simp)
    have hord' := hord step sub.rhs
    have hTD : ∀ t ∈ toBeApplied D (ord step sub.rhs), ∃ k, (k, t) ∈ D := fun t ht => by
      obtain ⟨k, _, hk⟩ := toBeApplied_mem ht; exact ⟨k, hk⟩
    obtain ⟨f1, f2, f3, f4, f5⟩ := foldl_apply_spec hp (toBeApplied D (ord step sub.rhs)) sub hs.wf hs.canon (by
      intro t ht
      obtain ⟨k, hk⟩ := hTD t ht
      have := hD _ hk
      refine ⟨by rw [this.frm]; exact this.ne, fun t' ht' => ?_⟩
      obtain ⟨k', hk'⟩ := hTD t' ht'
      rw [(hD _ hk').frm]
      exact h2 _ hk _ (by simp [hk']))
    generalize hacc : (toBeApplied D (ord step sub.rhs)).foldl (fun acc sub => acc.applySubstitution sub (p : Int)) sub
      = sub' at f1 f2 f3 f4 f5
    -- keys of the composed right-hand side
    have hk0 : ∀ x ∈ sub'.rhs.keys, x = 0 ∨ (x ∈ sub.rhs.keys ∧ x ∉ D.map Prod.fst) ∨ ∃ d ∈ D, x ∈ d.2.rhs.keys := by
      intro x hx
      rcases f4 x hx with h | ⟨h, hne⟩ | ⟨t, ht, hx'⟩
      · exact Or.inl h
      · refine Or.inr (Or.inl ⟨h, fun hmem => ?_⟩)
        obtain ⟨t, ht, htD⟩ := toBeApplied_covers (hord'.mem_iff.2 h) hmem
        exact hne t ht (hD _ htD).frm.symm
      · obtain ⟨k, hk⟩ := hTD t ht
        exact Or.inr (Or.inr ⟨_, hk, hx'⟩)
    have hgood' : GoodS p (s, sub') := ⟨f1.trans hs.frm, hs.ne, f2, f3⟩
    have hclean : ∀ x ∈ D ++ (s, sub) :: L, x.1 ∉ sub'.rhs.keys := by
      intro x hx hmem
      have hx0 : x.1 ≠ 0 := (h1 x hx).ne
      rcases hk0 _ hmem with h | ⟨h, hn⟩ | ⟨d, hd, hx'⟩
      · exact hx0 h
      · rcases List.mem_append.1 hx with hx | hx
        · exact hn (List.mem_map_of_mem hx)
        · rcases List.mem_cons.1 hx with rfl | hx
          · exact h3 (s, sub) (by simp) h
          · exact (List.pairwise_cons.1 h4).1 x hx h
      · exact h2 d hd x hx hx'
    have hmemswap : ∀ x : Nat × S, x ∈ (D ++ [(s, sub')]) ++ L → x = (s, sub') ∨ x ∈ D ++ (s, sub) :: L := by
      intro x hx
      simp only [List.mem_append, List.mem_cons, List.not_mem_nil, or_false] at hx ⊢
      tauto
    obtain ⟨r1, r2, r3, r4, r5⟩ := ih (step + 1) (D ++ [(s, sub')])
      (by
        intro d hd
        rcases hmemswap d hd with rfl | hd
        · exact hgood'
        · exact h1 d hd)
      (by
        intro d hd e he hmem
        have he' : ∃ e' ∈ D ++ (s, sub) :: L, e'.1 = e.1 := by
          rcases hmemswap e he with rfl | he
          · exact ⟨(s, sub), by simp, rfl⟩
          · exact ⟨e, he, rfl⟩
        obtain ⟨e', he', heq⟩ := he'
        rw [← heq] at hmem
        rcases List.mem_append.1 hd with hd | hd
        · exact h2 d hd e' he' hmem
        · simp only [List.mem_singleton] at hd; subst hd
          exact hclean e' he' hmem)
      (fun e he => h3 e (by simp [he])) (List.pairwise_cons.1 h4).2
    have hstep : nonoverlap ord p step D ((s, sub) :: L) = nonoverlap ord p (step + 1) (D ++ [(s, sub')]) L := by
      simp only [nonoverlap, hacc]
    simp only [hstep]
    refine ⟨?_, r2, r3, ?_, ?_⟩
    · rw [r1]; simp
    · intro r hr x hx
      rcases r4 r hr x hx with h | ⟨e, he, hx'⟩
      · exact Or.inl h
      · rcases hmemswap e he with rfl | he
        · rcases hk0 x hx' with h | ⟨h, _⟩ | ⟨d, hd, h⟩
          · exact Or.inl h
          · exact Or.inr ⟨(s, sub), by simp, h⟩
          · exact Or.inr ⟨d, by simp [hd], h⟩
        · exact Or.inr ⟨e, he, hx'⟩
    · intro ρ
      rw [r5 ρ]
      have hiff : (∀ d ∈ D, d.2.Holds ρ) → (sub'.Holds ρ ↔ sub.Holds ρ) := by
        intro h
        unfold Substitution.Holds
        rw [f1, f5 ρ (fun t ht => by obtain ⟨k, hk⟩ := hTD t ht; exact h _ hk)]
      simp only [List.mem_append, List.mem_cons, List.not_mem_nil, or_false]
      constructor
      · intro h e he
        rcases he with he | rfl | he
        · exact h e (Or.inl (Or.inl he))
        · exact (hiff (fun d hd => h d (Or.inl (Or.inl hd)))).1 (h (s, sub') (Or.inl (Or.inr rfl)))
        · exact h e (Or.inr he)
      · intro h e he
        rcases he with (he | rfl) | he
        · exact h e (Or.inl he)
        · exact (hiff (fun d hd => h d (Or.inl hd))).2 (h (s, sub) (Or.inr (Or.inl rfl)))
        · exact h e (Or.inr (Or.inr he))

end Verif.Linear
