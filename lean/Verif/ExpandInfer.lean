import Verif.ExpandEnv
import Verif.ExpandSpec

/-!
# What the inference of constants finds
-/

set_option linter.unusedSimpArgs false
set_option linter.unusedVariables false
set_option linter.unusedSectionVars false

namespace Verif.Expand

/-- The tags of `E` are among those of `E'`. -/
def Le (E E' : Env Bool) : Prop := ∀ y, E.get y = some true → E'.get y = some true

theorem Le.refl (E : Env Bool) : Le E E := fun _ h => h
theorem Le.trans {A B C : Env Bool} (h : Le A B) (k : Le B C) : Le A C := fun y hy => k y (h y hy)

mutual
theorem hasConst_reads (E : Env Bool) (arr : List String)
    (harr : ∀ y ∈ arr, E.get y ≠ some true) :
    ∀ e, hasConst E e = some true → Indexed arr e → ∀ y ∈ reads e, E.get y = some true
  | .num _, _, _, y, hy => by simp [reads] at hy
  | .var x acc idx, h, hi, y, hy => by
      simp only [hasConst] at h
      simp only [Indexed] at hi
      obtain ⟨hi1, hi2⟩ := hi
      have hx : idx = [] := by
        rcases hi1 with h' | h'
        · exact h'
        · exact absurd h (harr x h')
      subst hx
      simp only [reads, readsAll, List.mem_singleton] at hy
      subst hy
      exact h
  | .node k es, h, hi, y, hy => by
      simp only [Indexed] at hi
      simp only [reads] at hy
      cases k with
      | op name => exact hasConstAll_reads E arr harr es (by simpa [hasConst] using h) hi y hy
      | call name => exact hasConstAll_reads E arr harr es (by simpa [hasConst] using h) hi y hy
      | bus name => exact hasConstAll_reads E arr harr es (by simpa [hasConst] using h) hi y hy
      | arr => simp [hasConst] at h
      | uni => simp [hasConst] at h
  | .switch c t f, h, hi, y, hy => by
      simp only [Indexed] at hi
      simp only [reads, List.mem_append] at hy
      unfold hasConst at h
      cases hc : hasConst E c with
      | none => rw [hc] at h; simp at h
      | some bc =>
        cases bc with
        | false => rw [hc] at h; simp at h
        | true =>
          cases ht : hasConst E t with
          | none => rw [hc, ht] at h; simp at h
          | some bt =>
            cases bt with
            | false => rw [hc, ht] at h; simp at h
            | true =>
              rw [hc, ht] at h
              simp at h
              rcases hy with hy | hy | hy
              · exact hasConst_reads E arr harr c hc hi.1 y hy
              · exact hasConst_reads E arr harr t ht hi.2.1 y hy
              · exact hasConst_reads E arr harr f h hi.2.2 y hy
  | .sugar, h, _, _, _ => by simp [hasConst] at h
theorem hasConstAll_reads (E : Env Bool) (arr : List String)
    (harr : ∀ y ∈ arr, E.get y ≠ some true) :
    ∀ es, hasConstAll E es = some true → IndexedAll arr es →
      ∀ y ∈ readsAll es, E.get y = some true
  | [], _, _, y, hy => by simp [readsAll] at hy
  | e :: es, h, hi, y, hy => by
      simp only [IndexedAll] at hi
      simp only [readsAll, List.mem_append] at hy
      unfold hasConstAll at h
      cases hc : hasConst E e with
      | none => rw [hc] at h; simp at h
      | some bc =>
        cases bc with
        | false => rw [hc] at h; simp at h
        | true =>
          rw [hc] at h
          simp at h
          rcases hy with hy | hy
          · exact hasConst_reads E arr harr e hc hi.1 y hy
          · exact hasConstAll_reads E arr harr es h hi.2 y hy
end

theorem set_le (E : Env Bool) (x : String) (b : Bool) (h : b = true → E.get x = some true) :
    Le (E.set x b) E := by
  intro y hy
  rw [get_set] at hy
  by_cases hyx : y = x
  · subst hyx
    rw [if_pos rfl] at hy
    split at hy
    · exact h (by simpa using hy)
    · simp at hy
  · rwa [if_neg hyx] at hy

theorem applySubs_spec (x : String) : ∀ (es : List Ex) (E E1 : Env Bool),
    applySubs x es E = some E1 → E1.keys = E.keys ∧ Le E1 E ∧
      (E1.get x = some true → ∀ e ∈ es, ∃ E', Le E' E ∧ hasConst E' e = some true) := by
  intro es
  induction es with
  | nil =>
    intro E E1 h
    simp only [applySubs, Option.some.injEq] at h
    subst h
    exact ⟨rfl, Le.refl _, by simp⟩
  | cons e es ih =>
    intro E E1 h
    unfold applySubs at h
    cases hw : E.get x with
    | none => rw [hw] at h; simp at h
    | some was =>
      cases hr : hasConst E e with
      | none => rw [hw, hr] at h; simp at h
      | some remains =>
        rw [hw, hr] at h
        simp only [Option.bind_eq_bind, Option.bind_some] at h
        obtain ⟨k1, k2, k3⟩ := ih _ _ h
        have hle : Le (E.set x (was && remains)) E := by
          apply set_le
          intro hb
          simp only [Bool.and_eq_true] at hb
          rw [hw, hb.1]
        refine ⟨by rw [k1, keys_set], Le.trans k2 hle, ?_⟩
        intro ht e' he'
        rcases List.mem_cons.1 he' with rfl | he'
        · have h1 := k2 x ht
          rw [get_set, if_pos rfl, hw] at h1
          simp only [Option.isSome_some, if_true, Option.some.injEq, Bool.and_eq_true] at h1
          exact ⟨E, Le.refl _, by rw [hr, h1.2]⟩
        · obtain ⟨E', hE', hc⟩ := k3 ht e' he'
          exact ⟨E', Le.trans hE' hle, hc⟩

theorem applySyms_spec : ∀ (syms : List Sym) (E E1 : Env Bool),
    applySyms syms E = some E1 → E1.keys = E.keys ∧ Le E1 E ∧
      ∀ s ∈ syms, E1.get s.name = some true →
        ∀ e ∈ s.subs, ∃ E', Le E' E ∧ hasConst E' e = some true := by
  intro syms
  induction syms with
  | nil =>
    intro E E1 h
    simp only [applySyms, Option.some.injEq] at h
    subst h
    exact ⟨rfl, Le.refl _, by simp⟩
  | cons s ss ih =>
    intro E E1 h
    unfold applySyms at h
    cases ha : applySubs s.name s.subs E with
    | none => rw [ha] at h; simp at h
    | some E0 =>
      rw [ha] at h
      simp only [Option.bind_eq_bind, Option.bind_some] at h
      obtain ⟨a1, a2, a3⟩ := applySubs_spec _ _ _ _ ha
      obtain ⟨k1, k2, k3⟩ := ih _ _ h
      refine ⟨by rw [k1, a1], Le.trans k2 a2, ?_⟩
      intro s' hs' ht e he
      rcases List.mem_cons.1 hs' with rfl | hs'
      · exact a3 (k2 _ ht) e he
      · obtain ⟨E', hE', hc⟩ := k3 s' hs' ht e he
        exact ⟨E', Le.trans hE' a2, hc⟩

/-- A symbol with its tag. -/
def flag (E : Env Bool) (s : Sym) : Sym := { s with const := (E.get s.name).getD false }

theorem flagSyms_eq (E : Env Bool) : ∀ (syms syms' : List Sym),
    flagSyms E syms = some syms' → syms' = syms.map (flag E) := by
  intro syms
  induction syms with
  | nil => intro syms' h; simpa [flagSyms] using h.symm
  | cons s ss ih =>
    intro syms' h
    unfold flagSyms at h
    cases hc : E.get s.name with
    | none => rw [hc] at h; simp at h
    | some c =>
      cases hr : flagSyms E ss with
      | none => rw [hc, hr] at h; simp at h
      | some rest =>
        rw [hc, hr] at h
        simp only [Option.bind_eq_bind, Option.bind_some, Option.pure_def, Option.some.injEq] at h
        rw [← h, List.map_cons, ih _ hr, flag, hc]
        rfl

theorem plainSyms_flag (E : Env Bool) (t : Bool) : ∀ (syms : List Sym) (arr vis : List String),
    PlainSyms t arr vis syms → PlainSyms t arr vis (syms.map (flag E)) := by
  intro syms
  induction syms with
  | nil => intro _ _ h; exact h
  | cons s ss ih =>
    intro arr vis h
    simp only [List.map_cons, PlainSyms] at h ⊢
    exact ⟨h.1, h.2.1, h.2.2.1, h.2.2.2.1, ih _ _ h.2.2.2.2⟩

theorem names_flag (E : Env Bool) (syms : List Sym) :
    (syms.map (flag E)).map Sym.name = syms.map Sym.name := by
  rw [List.map_map]; rfl

theorem arrs_flag (E : Env Bool) (syms : List Sym) :
    ((syms.map (flag E)).filter fun s => !s.dims.isEmpty).map Sym.name =
      (syms.filter fun s => !s.dims.isEmpty).map Sym.name := by
  induction syms with
  | nil => rfl
  | cons s ss ih =>
    simp only [List.map_cons, List.filter_cons]
    have : (flag E s).dims = s.dims := rfl
    rw [this]
    split
    · simp only [List.map_cons, ih]; rfl
    · exact ih

/-- What a flagged initialization block adds to the names that must not change. -/
def adds : Stmt → String → Prop
  | .init syms _, y => ∃ s ∈ syms, s.const = true ∧ (y = s.name ∨ y ∈ readsAll s.subs)
  | _, _ => False

mutual
/-- No statement assigns a name of `F`, nor one that a constant depends on. -/
def Ok : (String → Prop) → Stmt → Prop
  | F, .ifThen _ a => Ok F a
  | F, .ifElse _ a b => Ok F a ∧ Ok F b
  | F, .loop _ s => Ok F s
  | F, .subst x _ _ _ => ¬ F x
  | F, .init syms _ => ∀ s ∈ syms, s.const = true → s.tag = true
  | F, .block ss => OkAll F ss
  | _, _ => True
/-- The same for the statements of a block. -/
def OkAll : (String → Prop) → List Stmt → Prop
  | _, [] => True
  | F, s :: ss => Ok F s ∧ OkAll (fun y => F y ∨ adds s y) ss
end

mutual
theorem Ok.mono : ∀ (s : Stmt) (F G : String → Prop), (∀ y, G y → F y) → Ok F s → Ok G s
  | .ifThen _ a, F, G, h, k => by simp only [Ok] at k ⊢; exact Ok.mono a F G h k
  | .ifElse _ a b, F, G, h, k => by
      simp only [Ok] at k ⊢; exact ⟨Ok.mono a F G h k.1, Ok.mono b F G h k.2⟩
  | .loop _ s, F, G, h, k => by simp only [Ok] at k ⊢; exact Ok.mono s F G h k
  | .subst x _ _ _, F, G, h, k => by simp only [Ok] at k ⊢; exact fun g => k (h x g)
  | .init syms _, F, G, h, k => by simp only [Ok] at k ⊢; exact k
  | .block ss, F, G, h, k => by simp only [Ok] at k ⊢; exact OkAll.mono ss F G h k
  | .ret _, _, _, _, _ => by simp only [Ok]
  | .under _, _, _, _, _ => by simp only [Ok]
  | .ceq _ _, _, _, _, _ => by simp only [Ok]
  | .log _, _, _, _, _ => by simp only [Ok]
  | .check _, _, _, _, _ => by simp only [Ok]
theorem OkAll.mono : ∀ (ss : List Stmt) (F G : String → Prop), (∀ y, G y → F y) →
    OkAll F ss → OkAll G ss
  | [], _, _, _, _ => by simp only [OkAll]
  | s :: ss, F, G, h, k => by
      simp only [OkAll] at k ⊢
      exact ⟨Ok.mono s F G h k.1, OkAll.mono ss _ _ (fun y hy => hy.imp (h y) id) k.2⟩
end

/-- A statement that is not an initialization block; such a block is put aside. -/
def aside : Stmt → Stmt
  | .init _ _ => .log []
  | s => s

/-- The statements of a block before the flags are set: `T` are the tags at its end. -/
def OkT (T : String → Prop) (F : String → Prop) : List String → List Stmt → Prop
  | _, [] => True
  | vis, s :: ss =>
      Ok (fun y => y ∈ vis ∧ (T y ∨ F y)) (aside s) ∧
      (∀ syms tail, s = .init syms tail → ∀ q ∈ syms, T q.name → q.tag = true) ∧
      OkT T F (intro s ++ vis) ss

theorem plainSyms_reads (t : Bool) : ∀ (syms : List Sym) (arr vis : List String),
    PlainSyms t arr vis syms → ∀ s ∈ syms, ∀ y ∈ readsAll s.subs,
      y ∈ (syms.map Sym.name).reverse ++ vis := by
  intro syms
  induction syms with
  | nil => intro _ _ _ s hs; simp at hs
  | cons s ss ih =>
    intro arr vis h q hq y hy
    simp only [PlainSyms] at h
    rcases List.mem_cons.1 hq with rfl | hq
    · exact List.mem_append_right _ (h.2.1 y hy)
    · have := ih _ _ h.2.2.2.2 q hq y hy
      simp only [List.mem_append, List.mem_reverse, List.mem_cons, List.map_cons] at this ⊢
      rcases this with h' | h' | h'
      · exact Or.inl (Or.inr h')
      · exact Or.inl (Or.inl h')
      · exact Or.inr h'

theorem indexed_mono : ∀ (arr arr' : List String), (∀ y ∈ arr, y ∈ arr') →
    (∀ e, Indexed arr e → Indexed arr' e) ∧ (∀ es, IndexedAll arr es → IndexedAll arr' es) := by
  intro arr arr' h
  have key : (∀ e : Ex, Indexed arr e → Indexed arr' e) := by
    intro e
    refine Ex.rec (motive_1 := fun e => Indexed arr e → Indexed arr' e)
      (motive_2 := fun es => IndexedAll arr es → IndexedAll arr' es) ?_ ?_ ?_ ?_ ?_ ?_ ?_ e
    · intro n _; simp only [Indexed]
    · intro x acc idx ih k
      simp only [Indexed] at k ⊢
      exact ⟨k.1.imp id (h x), ih k.2⟩
    · intro k es ih hk; simp only [Indexed] at hk ⊢; exact ih hk
    · intro c t f hc ht hf k
      simp only [Indexed] at k ⊢
      exact ⟨hc k.1, ht k.2.1, hf k.2.2⟩
    · intro _; simp only [Indexed]
    · intro _; simp only [IndexedAll]
    · intro e es he hes k
      simp only [IndexedAll] at k ⊢
      exact ⟨he k.1, hes k.2⟩
  refine ⟨key, ?_⟩
  intro es
  induction es with
  | nil => intro _; simp only [IndexedAll]
  | cons e es ih =>
    intro k
    simp only [IndexedAll] at k ⊢
    exact ⟨key e k.1, ih k.2⟩

theorem indexedAll_mem (arr : List String) : ∀ (es : List Ex), IndexedAll arr es →
    ∀ e ∈ es, Indexed arr e := by
  intro es
  induction es with
  | nil => intro _ e he; simp at he
  | cons a es ih =>
    intro h e he
    simp only [IndexedAll] at h
    rcases List.mem_cons.1 he with rfl | he
    · exact h.1
    · exact ih h.2 e he

theorem mem_readsAll (es : List Ex) (y : String) (h : y ∈ readsAll es) :
    ∃ e ∈ es, y ∈ reads e := by
  induction es with
  | nil => simp [readsAll] at h
  | cons e es ih =>
    simp only [readsAll, List.mem_append] at h
    rcases h with h | h
    · exact ⟨e, by simp, h⟩
    · obtain ⟨e', he', hy⟩ := ih h
      exact ⟨e', by simp [he'], hy⟩

theorem plainSyms_indexed (t : Bool) : ∀ (syms : List Sym) (arr vis : List String),
    PlainSyms t arr vis syms → ∀ s ∈ syms,
      IndexedAll (((syms.filter fun s => !s.dims.isEmpty).map Sym.name).reverse ++ arr) s.subs := by
  intro syms
  induction syms with
  | nil => intro _ _ _ s hs; simp at hs
  | cons s ss ih =>
    intro arr vis h q hq
    simp only [PlainSyms] at h
    rcases List.mem_cons.1 hq with rfl | hq
    · exact (indexed_mono arr _ (fun y hy => List.mem_append_right _ hy)).2 _ h.2.2.1
    · refine (indexed_mono _ _ ?_).2 _ (ih _ _ h.2.2.2.2 q hq)
      intro y hy
      simp only [List.mem_append, List.mem_reverse, List.filter_cons] at hy ⊢
      cases hd : s.dims.isEmpty with
      | true => simpa [hd] using hy
      | false =>
        simp only [hd, Bool.not_false, if_true, List.map_cons, List.mem_cons] at hy ⊢
        rcases hy with h' | h'
        · exact Or.inl (Or.inr h')
        · simp only [Bool.false_eq_true, if_false, List.mem_cons] at h'
          rcases h' with h' | h'
          · exact Or.inl (Or.inl h')
          · exact Or.inr h'

theorem adds_flag (T : String → Prop) (E E1 : Env Bool) (hE : ∀ y, E.get y = some true → T y)
    (t : Bool) (arr vis : List String) (syms : List Sym) (tail : List (String × Ex))
    (hp : PlainSyms t arr vis syms)
    (harr : ∀ y ∈ introArr (.init syms tail) ++ arr, E.get y ≠ some true)
    (ha : applySyms syms E = some E1) (y : String)
    (hy : adds (.init (syms.map (flag E1)) tail) y) :
    y ∈ intro (.init syms tail) ++ vis ∧ T y := by
  obtain ⟨q, hq, hqc, hqy⟩ := hy
  obtain ⟨s, hs, rfl⟩ := List.mem_map.1 hq
  obtain ⟨k1, k2, k3⟩ := applySyms_spec _ _ _ ha
  have ht : E1.get s.name = some true := by
    have : (E1.get s.name).getD false = true := hqc
    cases h : E1.get s.name with
    | none => rw [h] at this; simp at this
    | some b => rw [h] at this; simpa using this
  rcases hqy with rfl | hyr
  · refine ⟨?_, hE _ (k2 _ ht)⟩
    refine List.mem_append_left _ (List.mem_reverse.2 ?_)
    show s.name ∈ _
    exact List.mem_map_of_mem hs
  · have hyr' : y ∈ readsAll s.subs := hyr
    refine ⟨plainSyms_reads t syms arr vis hp s hs y hyr', ?_⟩
    obtain ⟨e, he, hye⟩ := mem_readsAll _ _ hyr'
    obtain ⟨E', hle, hc⟩ := k3 s hs ht e he
    have hi := indexedAll_mem _ _ (plainSyms_indexed t syms arr vis hp s hs) e he
    exact hE _ (hle _ (hasConst_reads E' _ (fun z hz h => harr z hz (hle _ h)) e hc hi y hye))

/-- What the second pass over a block gives. -/
theorem applyAll_spec (T F : String → Prop) : ∀ (ss : List Stmt) (arr vis : List String)
    (E E2 : Env Bool) (ss' : List Stmt) (G : String → Prop),
    applyAll ss E = some (ss', E2) → PlainAll arr vis ss → OkT T F vis ss →
    (∀ y, E.get y = some true → T y) → (∀ y ∈ arr, E.get y ≠ some true) →
    (∀ syms tail, .init syms tail ∈ ss → ∀ q ∈ syms, q.dims ≠ [] → E.get q.name ≠ some true) →
    (∀ y, G y → y ∈ vis ∧ (T y ∨ F y)) →
    E2.keys = E.keys ∧ Le E2 E ∧ PlainAll arr vis ss' ∧ OkAll G ss' := by
  intro ss
  induction ss with
  | nil =>
    intro arr vis E E2 ss' G h hp hok hT harr hd hG
    simp only [applyAll, Option.some.injEq, Prod.mk.injEq] at h
    obtain ⟨rfl, rfl⟩ := h
    exact ⟨rfl, Le.refl _, hp, by simp only [OkAll]⟩
  | cons s ss ih =>
    intro arr vis E E2 ss' G h hp hok hT harr hd hG
    simp only [PlainAll] at hp
    simp only [OkT] at hok
    by_cases hinit : ∃ syms tail, s = .init syms tail
    · obtain ⟨syms, tail, rfl⟩ := hinit
      simp only [applyAll] at h
      cases ha : applySyms syms E with
      | none => rw [ha] at h; simp at h
      | some E1 =>
        cases hf : flagSyms E1 syms with
        | none => rw [ha] at h; simp [hf] at h
        | some syms' =>
          cases hr : applyAll ss E1 with
          | none => rw [ha] at h; simp [hf, hr] at h
          | some p =>
            obtain ⟨rest, E2'⟩ := p
            rw [ha] at h
            simp [hf, hr] at h
            obtain ⟨rfl, rfl⟩ := h
            obtain ⟨k1, k2, k3⟩ := applySyms_spec _ _ _ ha
            have hs' := flagSyms_eq _ _ _ hf
            have harr' : ∀ y ∈ introArr (.init syms tail) ++ arr, E.get y ≠ some true := by
              intro y hy
              rcases List.mem_append.1 hy with hy | hy
              · simp only [introArr, List.mem_reverse, List.mem_map, List.mem_filter] at hy
                obtain ⟨q, ⟨hq, hqd⟩, rfl⟩ := hy
                exact hd syms tail (by simp) q hq (by intro h0; rw [h0] at hqd; simp at hqd)
              · exact harr y hy
            have hplain : PlainSyms (!tail.isEmpty) arr vis syms := by
              have := hp.1; simp only [Plain] at this; exact this.1
            have hadd := adds_flag T E E1 hT _ arr vis syms tail hplain harr' ha
            rw [← hs'] at hadd
            have hintro : intro (.init syms' tail) = intro (.init syms tail) := by
              simp only [intro]; rw [hs', names_flag]
            have hintroA : introArr (.init syms' tail) = introArr (.init syms tail) := by
              simp only [introArr]; rw [hs', arrs_flag]
            obtain ⟨j1, j2, j3, j4⟩ := ih (introArr (.init syms tail) ++ arr)
              (intro (.init syms tail) ++ vis) E1 E2' rest
              (fun y => G y ∨ adds (.init syms' tail) y) hr hp.2 hok.2.2
              (fun y hy => hT y (k2 y hy)) (fun y hy h0 => harr' y hy (k2 y h0))
              (fun a b hab q hq hqd h0 => hd a b (by simp [hab]) q hq hqd (k2 _ h0))
              (by
                rintro y (hy | hy)
                · exact ⟨List.mem_append_right _ (hG y hy).1, (hG y hy).2⟩
                · exact ⟨(hadd y hy).1, Or.inl (hadd y hy).2⟩)
            refine ⟨by rw [j1, k1], Le.trans j2 k2, ?_, ?_⟩
            · simp only [PlainAll]
              rw [hintro, hintroA]
              refine ⟨?_, j3⟩
              have := hp.1
              simp only [Plain] at this ⊢
              rw [hs']
              exact ⟨plainSyms_flag _ _ _ _ _ this.1, by rw [names_flag]; exact this.2⟩
            · simp only [OkAll]
              refine ⟨?_, j4⟩
              simp only [Ok]
              intro q hq hqc
              rw [hs'] at hq
              obtain ⟨s, hs, rfl⟩ := List.mem_map.1 hq
              have ht : E1.get s.name = some true := by
                have : (E1.get s.name).getD false = true := hqc
                cases h : E1.get s.name with
                | none => rw [h] at this; simp at this
                | some b => rw [h] at this; simpa using this
              exact hok.2.1 syms tail rfl s hs (hT _ (k2 _ ht))
    · have hstep : applyAll (s :: ss) E = (applyAll ss E).bind fun p => some (s :: p.1, p.2) := by
        cases s <;> first | rfl | exact absurd ⟨_, _, rfl⟩ hinit
      rw [hstep] at h
      cases hr : applyAll ss E with
      | none => rw [hr] at h; simp at h
      | some p =>
        obtain ⟨rest, E2'⟩ := p
        rw [hr] at h
        simp only [Option.bind_some, Option.some.injEq, Prod.mk.injEq] at h
        obtain ⟨rfl, rfl⟩ := h
        have hi : intro s = [] := by cases s <;> first | rfl | exact absurd ⟨_, _, rfl⟩ hinit
        have hia : introArr s = [] := by cases s <;> first | rfl | exact absurd ⟨_, _, rfl⟩ hinit
        have hno : ∀ y, ¬ adds s y := by
          intro y; cases s <;> first | exact fun h => h | exact absurd ⟨_, _, rfl⟩ hinit
        rw [hi, hia, List.nil_append, List.nil_append] at hp
        rw [hi, List.nil_append] at hok
        obtain ⟨j1, j2, j3, j4⟩ := ih arr vis E E2' rest (fun y => G y ∨ adds s y) hr hp.2
          hok.2.2 hT harr (fun a b hab q hq => hd a b (by simp [hab]) q hq)
          (by
            rintro y (hy | hy)
            · exact hG y hy
            · exact absurd hy (hno y))
        refine ⟨j1, j2, ?_, ?_⟩
        · simp only [PlainAll]
          rw [hi, hia, List.nil_append, List.nil_append]
          exact ⟨hp.1, j3⟩
        · simp only [OkAll]
          refine ⟨?_, j4⟩
          have : Ok (fun y => y ∈ vis ∧ (T y ∨ F y)) s := by
            have := hok.1
            cases s <;> first | exact this | exact absurd ⟨_, _, rfl⟩ hinit
          exact Ok.mono s _ _ hG this

theorem addSyms_spec (t : Bool) : ∀ (syms : List Sym) (arr vis : List String) (E : Env Bool),
    PlainSyms t arr vis syms → (∀ x, x ∈ vis ↔ x ∈ E.keys.flatten) → E ≠ [] →
    (addSyms E syms).keys = addKeys (syms.map Sym.name).reverse E.keys ∧
      (∀ y ∈ vis, (addSyms E syms).get y = E.get y) ∧
      ∀ q ∈ syms, (addSyms E syms).get q.name = some q.tag := by
  intro syms
  induction syms with
  | nil =>
    intro arr vis E _ _ _
    exact ⟨by simp [addSyms, addKeys_nil], fun _ _ => rfl, by simp⟩
  | cons s ss ih =>
    intro arr vis E hp hv hE
    simp only [PlainSyms] at hp
    have hE' : E.add s.name s.tag ≠ [] := by
      cases E with
      | nil => exact absurd rfl hE
      | cons b E => simp [Env.add]
    have hv' : ∀ x, x ∈ s.name :: vis ↔ x ∈ (E.add s.name s.tag).keys.flatten := by
      intro x
      rw [keys_add, mem_addKeys _ _ ((keys_ne E).2 hE), ← hv x]
      simp
    obtain ⟨k1, k2, k3⟩ := ih _ _ (E.add s.name s.tag) hp.2.2.2.2 hv' hE'
    have hunf : addSyms E (s :: ss) = addSyms (E.add s.name s.tag) ss := rfl
    rw [hunf]
    refine ⟨?_, ?_, ?_⟩
    · rw [k1, keys_add, addKeys_append, List.map_cons, List.reverse_cons]
    · intro y hy
      rw [k2 y (List.mem_cons_of_mem _ hy), get_add _ hE, if_neg]
      intro h0
      exact hp.1 (h0 ▸ hy)
    · intro q hq
      rcases List.mem_cons.1 hq with rfl | hq
      · rw [k2 _ (by simp), get_add _ hE, if_pos rfl]
      · exact k3 q hq

/-- The names the statements of a block declare in it, the last one first. -/
def introAll : List Stmt → List String
  | [] => []
  | s :: ss => introAll ss ++ intro s

theorem plainSyms_fresh (t : Bool) : ∀ (syms : List Sym) (arr vis : List String),
    PlainSyms t arr vis syms → ∀ y ∈ syms.map Sym.name, y ∉ vis := by
  intro syms
  induction syms with
  | nil => intro _ _ _ y hy; simp at hy
  | cons s ss ih =>
    intro arr vis hp y hy
    simp only [PlainSyms] at hp
    rcases List.mem_cons.1 hy with rfl | hy
    · exact hp.1
    · exact fun h => ih _ _ hp.2.2.2.2 y hy (List.mem_cons_of_mem _ h)

theorem plain_fresh (arr vis : List String) (s : Stmt) (h : Plain arr vis s) :
    ∀ y ∈ intro s, y ∉ vis := by
  intro y hy
  cases s with
  | init syms tail =>
    simp only [Plain] at h
    exact plainSyms_fresh _ _ _ _ h.1 y (List.mem_reverse.1 hy)
  | _ => simp [intro] at hy

theorem plainAll_fresh : ∀ (ss : List Stmt) (arr vis : List String), PlainAll arr vis ss →
    ∀ y ∈ introAll ss, y ∉ vis := by
  intro ss
  induction ss with
  | nil => intro _ _ _ y hy; simp [introAll] at hy
  | cons s ss ih =>
    intro arr vis h y hy
    simp only [PlainAll] at h
    simp only [introAll, List.mem_append] at hy
    rcases hy with hy | hy
    · exact fun h0 => ih _ _ h.2 y hy (List.mem_append_right _ h0)
    · exact plain_fresh _ _ _ h.1 y hy

theorem tag_dims (q : Sym) (h : q.tag = true) : q.dims = [] := by
  unfold Sym.tag at h
  simp only [Bool.and_eq_true, List.isEmpty_iff] at h
  exact h.1.1

/-- What inference gives for a statement. -/
def Inferred (arr vis : List String) (s : Stmt) (E : Env Bool) (s' : Stmt) (E' : Env Bool) :
    Prop :=
  E'.keys = addKeys (intro s) E.keys ∧
  (∀ y ∈ vis, E'.get y = some true → E.get y = some true ∧ y ∉ assigned s) ∧
  intro s' = intro s ∧ introArr s' = introArr s ∧ Plain arr vis s' ∧
  (∀ syms tail, s = .init syms tail →
    s' = .init syms tail ∧ ∀ q ∈ syms, E'.get q.name = some q.tag) ∧
  ((∀ syms tail, s ≠ .init syms tail) →
    (∀ syms tail, s' ≠ .init syms tail) ∧
    ∀ F : String → Prop, (∀ y, F y → y ∈ vis ∧ y ∉ assigned s) → Ok F s')

/-- What inference gives for the statements of a block. -/
def InferredAll (arr vis : List String) (ss : List Stmt) (E : Env Bool) (ss' : List Stmt)
    (E1 : Env Bool) : Prop :=
  E1.keys = addKeys (introAll ss) E.keys ∧
  (∀ y ∈ vis, E1.get y = some true → E.get y = some true ∧ y ∉ assignedAll ss) ∧
  PlainAll arr vis ss' ∧
  (∀ F : String → Prop, (∀ y, F y → y ∈ vis ∧ y ∉ assignedAll ss) →
    OkT (fun y => E1.get y = some true) F vis ss') ∧
  (∀ syms tail, .init syms tail ∈ ss' → ∀ q ∈ syms, q.dims ≠ [] → E1.get q.name ≠ some true)

mutual
theorem infer_spec : ∀ (s : Stmt) (arr vis : List String) (E : Env Bool) (s' : Stmt)
    (E' : Env Bool), Plain arr vis s → (∀ x, x ∈ vis ↔ x ∈ E.keys.flatten) → E ≠ [] →
    (∀ y ∈ arr, y ∈ vis ∧ E.get y ≠ some true) → infer s E = some (s', E') →
    Inferred arr vis s E s' E'
  | .ifThen c a, arr, vis, E, s', E', hp, hv, hE, harr, h => by
      simp only [Plain] at hp
      simp only [infer] at h
      cases ha : infer a E with
      | none => rw [ha] at h; simp at h
      | some p =>
        obtain ⟨a', E1⟩ := p
        rw [ha] at h
        simp at h
        obtain ⟨rfl, rfl⟩ := h
        obtain ⟨k1, k2, k3, k4, k5, k6, k7⟩ := infer_spec a arr vis E a' E1 hp.1 hv hE harr ha
        have hna : ∀ F : String → Prop, (∀ y, F y → y ∈ vis ∧ y ∉ assigned a) → Ok F a' := by
          by_cases hi : ∃ syms tail, a = .init syms tail
          · obtain ⟨syms, tail, rfl⟩ := hi
            have hs : syms = [] := by simpa [intro] using hp.2
            obtain ⟨k6a, k6b⟩ := k6 _ _ rfl
            intro F _
            subst hs
            rw [k6a]
            simp [Ok]
          · exact (k7 (fun s t hst => hi ⟨s, t, hst⟩)).2
        refine ⟨?_, ?_, rfl, rfl, ?_, ?_, ?_⟩
        · rw [k1, hp.2]; rfl
        · intro y hy ht
          simpa [assigned] using k2 y hy ht
        · simp only [Plain]; exact ⟨k5, by rw [k3, hp.2]⟩
        · intro _ _ h0; simp at h0
        · intro _
          refine ⟨by simp, ?_⟩
          intro F hF
          simp only [Ok]
          exact hna F (fun y hy => by simpa [assigned] using hF y hy)
  | .ifElse c a b, arr, vis, E, s', E', hp, hv, hE, harr, h => by
      simp only [Plain] at hp
      simp only [infer] at h
      cases ha : infer a E with
      | none => rw [ha] at h; simp at h
      | some p =>
        obtain ⟨a', E1⟩ := p
        cases hb : infer b E1 with
        | none => rw [ha] at h; simp [hb] at h
        | some p =>
          obtain ⟨b', E2⟩ := p
          rw [ha] at h
          simp [hb] at h
          obtain ⟨rfl, rfl⟩ := h
          obtain ⟨k1, k2, k3, k4, k5, k6, k7⟩ := infer_spec a arr vis E a' E1 hp.1 hv hE harr ha
          have hk1 : E1.keys = E.keys := by rw [k1, hp.2.1, addKeys_nil]
          have hE1 : E1 ≠ [] := (keys_ne E1).1 (by rw [hk1]; exact (keys_ne E).2 hE)
          obtain ⟨j1, j2, j3, j4, j5, j6, j7⟩ := infer_spec b arr vis E1 b' E2 hp.2.2.1
            (by rw [hk1]; exact hv) hE1
            (fun y hy => ⟨(harr y hy).1, fun h0 =>
              (harr y hy).2 (k2 y (harr y hy).1 h0).1⟩) hb
          have hna : ∀ F : String → Prop, (∀ y, F y → y ∈ vis ∧ y ∉ assigned a) → Ok F a' := by
            by_cases hi : ∃ syms tail, a = .init syms tail
            · obtain ⟨syms, tail, rfl⟩ := hi
              have hs : syms = [] := by simpa [intro] using hp.2.1
              obtain ⟨k6a, k6b⟩ := k6 _ _ rfl
              intro F _
              subst hs
              rw [k6a]
              simp [Ok]
            · exact (k7 (fun s t hst => hi ⟨s, t, hst⟩)).2
          have hnb : ∀ F : String → Prop, (∀ y, F y → y ∈ vis ∧ y ∉ assigned b) → Ok F b' := by
            by_cases hi : ∃ syms tail, b = .init syms tail
            · obtain ⟨syms, tail, rfl⟩ := hi
              have hs : syms = [] := by simpa [intro] using hp.2.2.2
              obtain ⟨k6a, k6b⟩ := j6 _ _ rfl
              intro F _
              subst hs
              rw [k6a]
              simp [Ok]
            · exact (j7 (fun s t hst => hi ⟨s, t, hst⟩)).2
          refine ⟨?_, ?_, rfl, rfl, ?_, ?_, ?_⟩
          · rw [j1, hk1, hp.2.2.2]; rfl
          · intro y hy ht
            obtain ⟨q1, q2⟩ := j2 y hy ht
            obtain ⟨q3, q4⟩ := k2 y hy q1
            exact ⟨q3, by simp [assigned, q2, q4]⟩
          · simp only [Plain]
            exact ⟨k5, by rw [k3, hp.2.1], j5, by rw [j3, hp.2.2.2]⟩
          · intro _ _ h0; simp at h0
          · intro _
            refine ⟨by simp, ?_⟩
            intro F hF
            simp only [Ok]
            refine ⟨hna F (fun y hy => ?_), hnb F (fun y hy => ?_)⟩
            · have := hF y hy
              simp only [assigned, List.mem_append, not_or] at this
              exact ⟨this.1, this.2.1⟩
            · have := hF y hy
              simp only [assigned, List.mem_append, not_or] at this
              exact ⟨this.1, this.2.2⟩
  | .loop c a, arr, vis, E, s', E', hp, hv, hE, harr, h => by
      simp only [Plain] at hp
      simp only [infer] at h
      cases ha : infer a E with
      | none => rw [ha] at h; simp at h
      | some p =>
        obtain ⟨a', E1⟩ := p
        rw [ha] at h
        simp at h
        obtain ⟨rfl, rfl⟩ := h
        obtain ⟨k1, k2, k3, k4, k5, k6, k7⟩ := infer_spec a arr vis E a' E1 hp.1 hv hE harr ha
        have hna : ∀ F : String → Prop, (∀ y, F y → y ∈ vis ∧ y ∉ assigned a) → Ok F a' := by
          by_cases hi : ∃ syms tail, a = .init syms tail
          · obtain ⟨syms, tail, rfl⟩ := hi
            have hs : syms = [] := by simpa [intro] using hp.2
            obtain ⟨k6a, k6b⟩ := k6 _ _ rfl
            intro F _
            subst hs
            rw [k6a]
            simp [Ok]
          · exact (k7 (fun s t hst => hi ⟨s, t, hst⟩)).2
        refine ⟨?_, ?_, rfl, rfl, ?_, ?_, ?_⟩
        · rw [k1, hp.2]; rfl
        · intro y hy ht
          simpa [assigned] using k2 y hy ht
        · simp only [Plain]; exact ⟨k5, by rw [k3, hp.2]⟩
        · intro _ _ h0; simp at h0
        · intro _
          refine ⟨by simp, ?_⟩
          intro F hF
          simp only [Ok]
          exact hna F (fun y hy => by simpa [assigned] using hF y hy)
  | .subst x acc idx e, arr, vis, E, s', E', hp, hv, hE, harr, h => by
      simp only [infer] at h
      cases hx : E.get x with
      | none => rw [hx] at h; simp at h
      | some b =>
        rw [hx] at h
        simp at h
        obtain ⟨rfl, rfl⟩ := h
        refine ⟨?_, ?_, rfl, rfl, ?_, ?_, ?_⟩
        · rw [keys_set]; exact (addKeys_nil _).symm
        · intro y hy ht
          have hle := set_le E x false (by simp) y ht
          refine ⟨hle, ?_⟩
          simp only [assigned, List.mem_singleton]
          rintro rfl
          rw [get_set, if_pos rfl, hx] at ht
          simp at ht
        · simp only [Plain]
        · intro _ _ h0; simp at h0
        · intro _
          refine ⟨by simp, ?_⟩
          intro F hF
          simp only [Ok]
          intro hx'
          exact (hF x hx').2 (by simp [assigned])
  | .init syms tail, arr, vis, E, s', E', hp, hv, hE, harr, h => by
      simp only [infer, Option.some.injEq, Prod.mk.injEq] at h
      obtain ⟨rfl, rfl⟩ := h
      have hp' := hp
      simp only [Plain] at hp'
      obtain ⟨k1, k2, k3⟩ := addSyms_spec _ syms arr vis E hp'.1 hv hE
      refine ⟨k1, ?_, rfl, rfl, hp, ?_, ?_⟩
      · intro y hy ht
        rw [k2 y hy] at ht
        exact ⟨ht, by simp [assigned]⟩
      · intro a b hab
        simp only [Stmt.init.injEq] at hab
        obtain ⟨rfl, rfl⟩ := hab
        exact ⟨rfl, k3⟩
      · intro h0; exact absurd rfl (h0 syms tail)
  | .block ss, arr, vis, E, s', E', hp, hv, hE, harr, h => by
      simp only [Plain] at hp
      simp only [infer] at h
      cases ha : inferAll ss E.push with
      | none => rw [ha] at h; simp at h
      | some p =>
        obtain ⟨ss1, E1⟩ := p
        cases hb : applyAll ss1 E1 with
        | none => rw [ha] at h; simp [hb] at h
        | some p =>
          obtain ⟨ss2, E2⟩ := p
          rw [ha] at h
          simp [hb] at h
          obtain ⟨rfl, rfl⟩ := h
          have hvp : ∀ x, x ∈ vis ↔ x ∈ E.push.keys.flatten := by
            intro x; rw [keys_push, List.flatten_cons, List.nil_append]; exact hv x
          obtain ⟨k1, k2, k3, k4, k5⟩ := inferAll_spec ss arr vis E.push ss1 E1 hp hvp
            (by simp [Env.push]) (fun y hy => ⟨(harr y hy).1, by
              rw [get_push]; exact (harr y hy).2⟩) ha
          have happ := fun F hF G hG => applyAll_spec (fun y => E1.get y = some true) F ss1 arr vis
            E1 E2 ss2 G hb k3 (k4 F hF) (fun y hy => hy)
            (fun y hy h0 => (harr y hy).2 (by
              have := (k2 y (harr y hy).1 h0).1
              rwa [get_push] at this)) k5 hG
          obtain ⟨j1, j2, j3, _⟩ := happ (fun _ => False) (by simp) (fun _ => False) (by simp)
          have hkeys : E2.keys = introAll ss :: E.keys := by
            rw [j1, k1, keys_push]
            simp [addKeys]
          refine ⟨?_, ?_, rfl, rfl, ?_, ?_, ?_⟩
          · rw [keys_pop, hkeys]
            exact (addKeys_nil _).symm
          · intro y hy ht
            have hfresh : y ∉ introAll ss := fun h0 => plainAll_fresh ss arr vis hp y h0 hy
            rw [get_pop _ _ (by rw [hkeys]; exact hfresh)] at ht
            obtain ⟨q1, q2⟩ := k2 y hy (j2 y ht)
            rw [get_push] at q1
            exact ⟨q1, by simpa [assigned] using q2⟩
          · simp only [Plain]; exact j3
          · intro _ _ h0; simp at h0
          · intro _
            refine ⟨by simp, ?_⟩
            intro F hF
            simp only [Ok]
            have hF' : ∀ y, F y → y ∈ vis ∧ y ∉ assignedAll ss := fun y hy => by
              simpa [assigned] using hF y hy
            exact (happ F hF' F (fun y hy => ⟨(hF y hy).1, Or.inr hy⟩)).2.2.2
  | .ret e, arr, vis, E, s', E', hp, hv, hE, harr, h => by
      simp only [infer, Option.some.injEq, Prod.mk.injEq] at h
      obtain ⟨rfl, rfl⟩ := h
      exact ⟨(addKeys_nil _).symm, fun y hy ht => ⟨ht, by simp [assigned]⟩, rfl, rfl, hp,
        fun _ _ h0 => by simp at h0, fun _ => ⟨by simp, fun _ _ => by simp only [Ok]⟩⟩
  | .under e, arr, vis, E, s', E', hp, hv, hE, harr, h => by
      simp only [infer, Option.some.injEq, Prod.mk.injEq] at h
      obtain ⟨rfl, rfl⟩ := h
      exact ⟨(addKeys_nil _).symm, fun y hy ht => ⟨ht, by simp [assigned]⟩, rfl, rfl, hp,
        fun _ _ h0 => by simp at h0, fun _ => ⟨by simp, fun _ _ => by simp only [Ok]⟩⟩
  | .ceq a b, arr, vis, E, s', E', hp, hv, hE, harr, h => by
      simp only [infer, Option.some.injEq, Prod.mk.injEq] at h
      obtain ⟨rfl, rfl⟩ := h
      exact ⟨(addKeys_nil _).symm, fun y hy ht => ⟨ht, by simp [assigned]⟩, rfl, rfl, hp,
        fun _ _ h0 => by simp at h0, fun _ => ⟨by simp, fun _ _ => by simp only [Ok]⟩⟩
  | .log es, arr, vis, E, s', E', hp, hv, hE, harr, h => by
      simp only [infer, Option.some.injEq, Prod.mk.injEq] at h
      obtain ⟨rfl, rfl⟩ := h
      exact ⟨(addKeys_nil _).symm, fun y hy ht => ⟨ht, by simp [assigned]⟩, rfl, rfl, hp,
        fun _ _ h0 => by simp at h0, fun _ => ⟨by simp, fun _ _ => by simp only [Ok]⟩⟩
  | .check e, arr, vis, E, s', E', hp, hv, hE, harr, h => by
      simp only [infer, Option.some.injEq, Prod.mk.injEq] at h
      obtain ⟨rfl, rfl⟩ := h
      exact ⟨(addKeys_nil _).symm, fun y hy ht => ⟨ht, by simp [assigned]⟩, rfl, rfl, hp,
        fun _ _ h0 => by simp at h0, fun _ => ⟨by simp, fun _ _ => by simp only [Ok]⟩⟩
theorem inferAll_spec : ∀ (ss : List Stmt) (arr vis : List String) (E : Env Bool)
    (ss' : List Stmt) (E1 : Env Bool), PlainAll arr vis ss →
    (∀ x, x ∈ vis ↔ x ∈ E.keys.flatten) → E ≠ [] →
    (∀ y ∈ arr, y ∈ vis ∧ E.get y ≠ some true) → inferAll ss E = some (ss', E1) →
    InferredAll arr vis ss E ss' E1
  | [], arr, vis, E, ss', E1, hp, hv, hE, harr, h => by
      simp only [inferAll, Option.some.injEq, Prod.mk.injEq] at h
      obtain ⟨rfl, rfl⟩ := h
      exact ⟨(addKeys_nil _).symm, fun y hy ht => ⟨ht, by simp [assignedAll]⟩, hp,
        fun _ _ => by simp only [OkT], fun _ _ h0 => by simp at h0⟩
  | s :: ss, arr, vis, E, ss', E1, hp, hv, hE, harr, h => by
      simp only [PlainAll] at hp
      simp only [inferAll] at h
      cases ha : infer s E with
      | none => rw [ha] at h; simp at h
      | some p =>
        obtain ⟨s', E0⟩ := p
        cases hb : inferAll ss E0 with
        | none => rw [ha] at h; simp [hb] at h
        | some p =>
          obtain ⟨rest, E1'⟩ := p
          rw [ha] at h
          simp [hb] at h
          obtain ⟨rfl, rfl⟩ := h
          obtain ⟨k1, k2, k3, k4, k5, k6, k7⟩ := infer_spec s arr vis E s' E0 hp.1 hv hE harr ha
          have hE0 : E0 ≠ [] := (keys_ne E0).1 (by
            rw [k1]
            cases hE' : E.keys with
            | nil => exact absurd hE' ((keys_ne E).2 hE)
            | cons b K => simp [addKeys])
          have harr0 : ∀ y ∈ introArr s ++ arr, y ∈ intro s ++ vis ∧ E0.get y ≠ some true := by
            intro y hy
            rcases List.mem_append.1 hy with hy | hy
            · cases s with
              | init syms tail =>
                obtain ⟨_, k6b⟩ := k6 syms tail rfl
                simp only [introArr, List.mem_reverse, List.mem_map, List.mem_filter] at hy
                obtain ⟨q, ⟨hq, hqd⟩, rfl⟩ := hy
                refine ⟨List.mem_append_left _ (List.mem_reverse.2 (List.mem_map_of_mem hq)), ?_⟩
                rw [k6b q hq]
                intro h0
                have := tag_dims q (by simpa using h0)
                rw [this] at hqd
                simp at hqd
              | _ => simp [introArr] at hy
            · refine ⟨List.mem_append_right _ (harr y hy).1, fun h0 => ?_⟩
              exact (harr y hy).2 (k2 y (harr y hy).1 h0).1
          have hv0 : ∀ x, x ∈ intro s ++ vis ↔ x ∈ E0.keys.flatten := by
            intro x
            rw [k1, mem_addKeys _ _ ((keys_ne E).2 hE), List.mem_append, hv x]
          obtain ⟨j1, j2, j3, j4, j5⟩ := inferAll_spec ss _ _ E0 rest E1' hp.2 hv0 hE0 harr0 hb
          refine ⟨?_, ?_, ?_, ?_, ?_⟩
          · rw [j1, k1, addKeys_append]; rfl
          · intro y hy ht
            obtain ⟨q1, q2⟩ := j2 y (List.mem_append_right _ hy) ht
            obtain ⟨q3, q4⟩ := k2 y hy q1
            exact ⟨q3, by simp [assignedAll, q2, q4]⟩
          · simp only [PlainAll]
            rw [k3, k4]
            exact ⟨k5, j3⟩
          · intro F hF
            simp only [OkT]
            refine ⟨?_, ?_, ?_⟩
            · by_cases hi : ∃ syms tail, s = .init syms tail
              · obtain ⟨syms, tail, rfl⟩ := hi
                rw [(k6 _ _ rfl).1]
                simp [Ok, aside]
              · obtain ⟨m1, m2⟩ := k7 (fun s t hst => hi ⟨s, t, hst⟩)
                have hm : aside s' = s' := by
                  cases s' <;> first | rfl | exact absurd rfl (m1 _ _)
                rw [hm]
                apply m2
                rintro y ⟨hy, hT | hF'⟩
                · have := j2 y (List.mem_append_right _ hy) hT
                  exact ⟨hy, (k2 y hy this.1).2⟩
                · have := hF y hF'
                  simp only [assignedAll, List.mem_append, not_or] at this
                  exact ⟨hy, this.2.1⟩
            · intro syms tail hs q hq hT
              by_cases hi : ∃ syms tail, s = .init syms tail
              · obtain ⟨syms', tail', rfl⟩ := hi
                obtain ⟨k6a, k6b⟩ := k6 _ _ rfl
                rw [k6a] at hs
                simp only [Stmt.init.injEq] at hs
                obtain ⟨rfl, rfl⟩ := hs
                have hmem : q.name ∈ intro (.init syms' tail') ++ vis :=
                  List.mem_append_left _ (List.mem_reverse.2 (List.mem_map_of_mem hq))
                have := (j2 _ hmem hT).1
                rw [k6b q hq] at this
                simpa using this
              · exact absurd hs ((k7 (fun s t hst => hi ⟨s, t, hst⟩)).1 _ _)
            · rw [k3]
              apply j4
              intro y hy
              have := hF y hy
              simp only [assignedAll, List.mem_append, not_or] at this
              exact ⟨List.mem_append_right _ this.1, this.2.2⟩
          · intro syms tail hm q hq hqd h0
            rcases List.mem_cons.1 hm with hm | hm
            · by_cases hi : ∃ syms tail, s = .init syms tail
              · obtain ⟨syms', tail', rfl⟩ := hi
                obtain ⟨k6a, k6b⟩ := k6 _ _ rfl
                rw [k6a] at hm
                simp only [Stmt.init.injEq] at hm
                obtain ⟨rfl, rfl⟩ := hm
                have hmem : q.name ∈ intro (.init syms tail) ++ vis :=
                  List.mem_append_left _ (List.mem_reverse.2 (List.mem_map_of_mem hq))
                have := (j2 _ hmem h0).1
                rw [k6b q hq] at this
                exact hqd (tag_dims q (by simpa using this))
              · exact absurd hm.symm ((k7 (fun s t hst => hi ⟨s, t, hst⟩)).1 _ _)
            · exact j5 syms tail hm q hq hqd h0
end

end Verif.Expand
