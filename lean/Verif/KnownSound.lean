import Verif.KnownLemmas
import Verif.FiltersSim

/-!
Lemmas about the known/unknown analysis.
-/

set_option linter.unusedSectionVars false
set_option linter.unusedSimpArgs false
set_option linter.unusedVariables false

namespace Verif.Known

open Verif.ModArith Verif.Algebra Verif.Exec Verif.Filters

/-! ### Joins -/

theorem tmax_self (u : KTag × Bool) : tmax u u = u := by
  obtain ⟨t, a⟩ := u
  simp [tmax]

theorem tmax_flag {u v : KTag × Bool} (h : u.2 = v.2) : (tmax u v).2 = u.2 := by
  obtain ⟨t, a⟩ := u
  obtain ⟨t', a'⟩ := v
  simp only at h
  subst h
  unfold tmax
  cases t <;> cases t' <;> simp

theorem tmax_flag' (u v : KTag × Bool) (h : (tmax u v).2 = true) : u.2 = true ∨ v.2 = true := by
  obtain ⟨t, a⟩ := u
  obtain ⟨t', a'⟩ := v
  revert h
  unfold tmax
  cases t <;> cases t' <;> simp <;> intro h <;> simp [h]

theorem tmax_known {u v : KTag × Bool} : (tmax u v).1 = .known ↔ u.1 = .known ∧ v.1 = .known := by
  obtain ⟨t, a⟩ := u
  obtain ⟨t', a'⟩ := v
  unfold tmax
  cases t <;> cases t' <;> simp

theorem tmax_twice (u v : KTag × Bool) : tmax u (tmax u v) = tmax u v := by
  obtain ⟨t, a⟩ := u
  obtain ⟨t', a'⟩ := v
  unfold tmax
  cases t <;> cases t' <;> simp

theorem tmax_first {u v : KTag × Bool} (hf : u.2 = v.2) (h : u ≠ v → v.1 = .known) : tmax u v = u := by
  obtain ⟨t, a⟩ := u
  obtain ⟨t', a'⟩ := v
  simp only at hf
  subst hf
  unfold tmax
  cases t <;> cases t' <;> simp at h ⊢

theorem KTag.not_known {t : KTag} : t ≠ .known ↔ t = .unknown := by cases t <;> simp

/-! ### `forget` and `check_modified` -/

theorem envGet_some {β : Type} {A : List (List (Nat × β))} {x : Nat} {u : β} (h : envGet A x = some u) :
    ∃ i, place A x = some i ∧ cell A i x = some u := by
  rw [envGet_cell] at h
  cases hp : place A x with
  | none => rw [hp] at h; cases h
  | some i => rw [hp] at h; exact ⟨i, rfl, h⟩

theorem envGet_none {β : Type} {A : List (List (Nat × β))} {x : Nat} (h : envGet A x = none) :
    place A x = none := by
  rw [envGet_cell] at h
  cases hp : place A x with
  | none => rfl
  | some i =>
    rw [hp] at h
    have := place_cell hp
    simp only [Option.bind_some] at h
    rw [h] at this
    cases this

theorem forget_spec : ∀ (L : List Nat) (A : TEnv), (forget L A).length = A.length ∧
    ∀ i x, cell (forget L A) i x =
      if x ∈ L ∧ place A x = some i then (cell A i x).map fun u => (KTag.unknown, u.2) else cell A i x
  | [], A => by simp [forget]
  | v :: rest, A => by
    rw [forget]
    cases hg : envGet A v with
    | none =>
      simp only
      obtain ⟨h1, h2⟩ := forget_spec rest A
      refine ⟨h1, fun i x => ?_⟩
      rw [h2]
      have := envGet_none hg
      by_cases hx : x = v
      · subst hx; simp [this]
      · simp [hx]
    | some u =>
      obtain ⟨t, arr⟩ := u
      simp only
      obtain ⟨j, hp, hc⟩ := envGet_some hg
      obtain ⟨A', hA⟩ := envSet_total (.unknown, arr) hp
      rw [hA]
      simp only
      obtain ⟨h1, h2⟩ := forget_spec rest A'
      obtain ⟨j', g1, g2, g3⟩ := envSet_cell hA
      rw [hp] at g1
      injection g1 with g1
      subst g1
      have hoff : Off (fun _ _ _ => True) A A' := Off.set (fun _ _ => trivial) hA
      refine ⟨h1.trans g2, fun i x => ?_⟩
      rw [h2, hoff.shape.place, g3]
      by_cases hx : i = j ∧ x = v
      · obtain ⟨rfl, rfl⟩ := hx
        simp [hp, hc]
      · simp only [if_neg hx]
        by_cases hxv : x = v
        · subst hxv
          have hij : i ≠ j := fun e => hx ⟨e, rfl⟩
          have : ¬ place A x = some i := by rw [hp]; simp [Ne.symm hij]
          simp [this]
        · simp [hxv]

theorem checkModified_spec : ∀ (L : List Nat) (ini fin : TEnv), Shape ini fin →
    (checkModified ini L fin).2.length = fin.length ∧
    (∀ i x ti tf, cell ini i x = some ti → cell fin i x = some tf →
      cell (checkModified ini L fin).2 i x =
        some (if x ∈ L ∧ place ini x = some i then tmax ti tf else tf)) ∧
    (∀ i x, cell ini i x = none → cell (checkModified ini L fin).2 i x = none) ∧
    ((checkModified ini L fin).1 = false ↔ ∀ i x ti tf, x ∈ L → place ini x = some i →
      cell ini i x = some ti → cell fin i x = some tf → ti ≠ tf → tf.1 = .known)
  | [], ini, fin, hs => by
    refine ⟨rfl, ?_, ?_, ?_⟩
    · intro i x ti tf _ h; simpa [checkModified] using h
    · intro i x h
      have := hs.2 i x
      rw [h] at this
      simpa [checkModified] using this
    · simp [checkModified]
  | v :: rest, ini, fin, hs => by
    rw [checkModified]
    cases hgi : envGet ini v with
    | none =>
      have hp := envGet_none hgi
      simp only
      obtain ⟨h1, h2, h3, h4⟩ := checkModified_spec rest ini fin hs
      refine ⟨h1, ?_, h3, ?_⟩
      · intro i x ti tf hi hf
        rw [h2 i x ti tf hi hf]
        by_cases hx : x = v
        · subst hx; simp [hp]
        · simp [hx]
      · rw [h4]
        constructor
        · intro h i x ti tf hx hpx
          rcases List.mem_cons.1 hx with rfl | hx
          · rw [hp] at hpx; cases hpx
          · exact h i x ti tf hx hpx
        · exact fun h i x ti tf hx => h i x ti tf (List.mem_cons_of_mem _ hx)
    | some tv =>
      obtain ⟨j, hp, hci⟩ := envGet_some hgi
      have hpf : place fin v = some j := by rw [← hs.place]; exact hp
      cases hgf : envGet fin v with
      | none => rw [envGet_none hgf] at hpf; cases hpf
      | some tw =>
        obtain ⟨j', hp', hcf⟩ := envGet_some hgf
        rw [hpf] at hp'
        injection hp' with hp'
        subst hp'
        simp only
        by_cases hne : tv = tw
        · subst hne
          simp only [ne_eq, not_true_eq_false, if_false]
          obtain ⟨h1, h2, h3, h4⟩ := checkModified_spec rest ini fin hs
          refine ⟨h1, ?_, h3, ?_⟩
          · intro i x ti tf hi hf
            rw [h2 i x ti tf hi hf]
            by_cases hx : x = v
            · subst hx
              by_cases hij : j = i
              · subst hij
                rw [hci] at hi; rw [hcf] at hf
                injection hi with hi; injection hf with hf
                subst hi; subst hf
                simp [tmax_self]
              · simp [hp, hij]
            · simp [hx]
          · rw [h4]
            constructor
            · intro h i x ti tf hx hpx hi hf hne
              rcases List.mem_cons.1 hx with rfl | hx
              · rw [hp] at hpx
                injection hpx with hpx
                subst hpx
                rw [hci] at hi; rw [hcf] at hf
                injection hi with hi; injection hf with hf
                exact absurd (hi.symm.trans hf) hne
              · exact h i x ti tf hx hpx hi hf hne
            · exact fun h i x ti tf hx => h i x ti tf (List.mem_cons_of_mem _ hx)
        · simp only [ne_eq, hne, not_false_eq_true, if_true]
          obtain ⟨fin', hfin⟩ := envSet_total (tmax tv tw) hpf
          rw [hfin]
          simp only
          obtain ⟨j', g1, g2, g3⟩ := envSet_cell hfin
          rw [hpf] at g1
          injection g1 with g1
          subst g1
          have hoff : Off (fun _ _ _ => True) fin fin' := Off.set (fun _ _ => trivial) hfin
          have hs' : Shape ini fin' := hs.trans hoff.shape.symm
          obtain ⟨h1, h2, h3, h4⟩ := checkModified_spec rest ini fin' hs'
          refine ⟨h1.trans g2, ?_, h3, ?_⟩
          · intro i x ti tf hi hf
            by_cases hx : i = j ∧ x = v
            · obtain ⟨rfl, rfl⟩ := hx
              rw [hci] at hi; rw [hcf] at hf
              injection hi with hi; injection hf with hf
              subst hi; subst hf
              rw [h2 i x tv (tmax tv tw) hci (by rw [g3]; simp)]
              simp [hp, tmax_twice]
            · rw [h2 i x ti tf hi (by rw [g3, if_neg hx]; exact hf)]
              by_cases hxv : x = v
              · subst hxv
                have hij : ¬ j = i := fun e => hx ⟨e.symm, rfl⟩
                simp [hp, hij]
              · simp [hxv]
          · simp only [Bool.or_eq_false_iff, decide_eq_false_iff_not]
            rw [h4]
            constructor
            · rintro ⟨hk, h⟩ i x ti tf hx hpx hi hf hne'
              rcases List.mem_cons.1 hx with rfl | hx
              · rw [hp] at hpx
                injection hpx with hpx
                subst hpx
                rw [hcf] at hf
                injection hf with hf
                subst hf
                cases htw : tw.1 with
                | known => rfl
                | unknown => exact absurd htw hk
              · by_cases hxv : i = j ∧ x = v
                · obtain ⟨rfl, rfl⟩ := hxv
                  rw [hcf] at hf
                  injection hf with hf
                  subst hf
                  cases htw : tw.1 with
                  | known => rfl
                  | unknown => exact absurd htw hk
                · exact h i x ti tf hx hpx hi (by rw [g3, if_neg hxv]; exact hf) hne'
            · intro h
              have hk := h j v tv tw List.mem_cons_self hp hci hcf hne
              refine ⟨by rw [hk]; simp, fun i x ti tf hx hpx hi hf hne' => ?_⟩
              by_cases hxv : i = j ∧ x = v
              · obtain ⟨rfl, rfl⟩ := hxv
                rw [hci] at hi
                injection hi with hi
                subst hi
                rw [g3] at hf
                simp only [and_self, if_true, Option.some.injEq] at hf
                subst hf
                cases hr : (tmax tv tw).1 with
                | known => rfl
                | unknown =>
                  exfalso
                  apply hne'
                  revert hk hne hr
                  obtain ⟨t, a⟩ := tv
                  obtain ⟨t', a'⟩ := tw
                  unfold tmax
                  cases t <;> cases t' <;> simp
              · exact h i x ti tf (List.mem_cons_of_mem _ hx) hpx hi
                  (by rw [g3, if_neg hxv] at hf; exact hf) hne'

/-! ### `merge` -/

theorem blockGet_append {β : Type} (a b : List (Nat × β)) (x : Nat) :
    blockGet (a ++ b) x = (blockGet a x).or (blockGet b x) := by
  induction a with
  | nil => rfl
  | cons e rest ih =>
    obtain ⟨y, v⟩ := e
    simp only [List.cons_append, blockGet]
    split
    · rfl
    · exact ih

theorem blockGet_map {β γ : Type} (f : Nat → β → γ) (a : List (Nat × β)) (x : Nat) :
    blockGet (a.map fun e => (e.1, f e.1 e.2)) x = (blockGet a x).map (f x) := by
  induction a with
  | nil => rfl
  | cons e rest ih =>
    obtain ⟨y, v⟩ := e
    simp only [List.map_cons, blockGet]
    split
    · rename_i h; subst h; rfl
    · exact ih

theorem blockGet_filter {β : Type} (p : Nat → Bool) (a : List (Nat × β)) (x : Nat) :
    blockGet (a.filter fun e => p e.1) x = if p x then blockGet a x else none := by
  induction a with
  | nil => simp [blockGet]
  | cons e rest ih =>
    obtain ⟨y, v⟩ := e
    simp only [List.filter_cons]
    by_cases hy : y = x
    · subst hy
      cases hp : p y
      · simp only [Bool.false_eq_true, if_false]
        rw [ih, hp]; simp
      · simp [blockGet]
    · cases hp : p y
      · simp only [Bool.false_eq_true, if_false, ih, blockGet, if_neg hy]
      · simp only [if_true, blockGet, if_neg hy, ih]

theorem mergeBlock_get (l r : List (Nat × (KTag × Bool))) (x : Nat) :
    blockGet (mergeBlock l r) x = match blockGet l x, blockGet r x with
      | some u, some v => some (tmax u v)
      | some u, none => some u
      | none, v => v := by
  unfold mergeBlock
  rw [blockGet_append, blockGet_filter (fun y => (blockGet l y).isNone)]
  have e := blockGet_map (fun y u => match blockGet r y with
    | some v => tmax u v
    | none => u) l x
  refine (congrArg (fun z => Option.or z _) e).trans ?_
  cases blockGet l x <;> cases blockGet r x <;> rfl

theorem merge_spec : ∀ (A B : TEnv), Shape A B → (merge A B).length = A.length ∧
    ∀ i x, cell (merge A B) i x = match cell A i x, cell B i x with
      | some u, some v => some (tmax u v)
      | _, _ => none
  | [], [], _ => by simp [merge]
  | [], _ :: _, h => by simp [Shape] at h
  | _ :: _, [], h => by simp [Shape] at h
  | a :: as, b :: bs, h => by
    obtain ⟨h1, h2⟩ := merge_spec as bs h.tail
    rw [merge]
    refine ⟨by simp [h1], fun i x => ?_⟩
    cases i with
    | zero =>
      have := h.2 0 x
      simp only [cell_zero] at this ⊢
      rw [mergeBlock_get]
      cases ha : blockGet a x <;> cases hb : blockGet b x <;> simp [ha, hb] at this ⊢
    | succ i =>
      simp only [cell_succ]
      exact h2 i x

theorem merge_shape {A B : TEnv} (h : Shape A B) : Shape (merge A B) A := by
  obtain ⟨h1, h2⟩ := merge_spec A B h
  refine ⟨h1, fun i x => ?_⟩
  rw [h2]
  have := h.2 i x
  cases ha : cell A i x <;> cases hb : cell B i x <;> simp [ha, hb] at this ⊢

/-! ### What an analysis changes -/

/-- Changes an analysis makes to a variable: the array mark stays, and a variable that is not assigned
can only become unknown. -/
def Chg (P : List Nat) (x : Nat) (u v : KTag × Bool) : Prop := u.2 = v.2 ∧ (x ∈ P ∨ v.1 = .unknown)

theorem Chg.trans {P : List Nat} (x : Nat) (u v w : KTag × Bool) (h : Chg P x u v) (h' : Chg P x v w) :
    Chg P x u w := ⟨h.1.trans h'.1, h'.2⟩

theorem Chg.mono {P Q : List Nat} (hPQ : ∀ x ∈ P, x ∈ Q) (x : Nat) (u v : KTag × Bool) (h : Chg P x u v) :
    Chg Q x u v := ⟨h.1, h.2.imp_left (hPQ x)⟩

theorem Off.forget {P L : List Nat} (A : TEnv) : Off (Chg P) A (forget L A) := by
  obtain ⟨h1, h2⟩ := forget_spec L A
  refine ⟨h1, fun i x => ?_⟩
  rw [h2]
  split
  · rename_i hc
    right
    refine ⟨hc.2, ?_⟩
    cases hu : cell A i x with
    | none => have := place_cell hc.2; rw [hu] at this; cases this
    | some u => exact ⟨u, _, rfl, rfl, rfl, .inr rfl⟩
  · exact .inl rfl

theorem Off.merge {P : List Nat} {A B C : TEnv} (hB : Off (Chg P) A B) (hC : Off (Chg P) A C) :
    Off (Chg P) A (merge B C) := by
  have hs : Shape B C := hB.shape.trans hC.shape.symm
  obtain ⟨h1, h2⟩ := merge_spec B C hs
  refine ⟨h1.trans hB.1, fun i x => ?_⟩
  rw [h2]
  rcases hB.2 i x with k | ⟨k1, u, v, k2, k3, k4⟩
  · rcases hC.2 i x with k' | ⟨k1', u', v', k2', k3', k4'⟩
    · left
      rw [k, k']
      cases cell A i x <;> simp [tmax_self]
    · right
      refine ⟨k1', u', tmax u' v', k2', by rw [k, k2', k3'], ?_, ?_⟩
      · rw [tmax_flag k4'.1]
      · refine k4'.2.imp_right fun h => ?_
        rw [← KTag.not_known, ne_eq, tmax_known, not_and]
        intro _ e
        rw [h] at e
        cases e
  · right
    rcases hC.2 i x with k' | ⟨k1', u', v', k2', k3', k4'⟩
    · refine ⟨k1, u, tmax v u, k2, by rw [k', k3, k2], ?_, ?_⟩
      · rw [tmax_flag k4.1.symm, k4.1]
      · refine k4.2.imp_right fun h => ?_
        rw [← KTag.not_known, ne_eq, tmax_known, not_and]
        intro e
        rw [h] at e
        cases e
    · rw [k2] at k2'
      injection k2' with k2'
      subst k2'
      refine ⟨k1, u, tmax v v', k2, by rw [k3, k3'], ?_, ?_⟩
      · rw [tmax_flag (k4.1.symm.trans k4'.1), k4.1]
      · refine k4.2.imp_right fun h => ?_
        rw [← KTag.not_known, ne_eq, tmax_known, not_and]
        intro e
        rw [h] at e
        cases e

theorem Off.checkModified {P L : List Nat} {ini fin : TEnv} (h : Off (Chg P) ini fin) :
    Off (Chg P) ini (checkModified ini L fin).2 := by
  obtain ⟨h1, h2, h3, _⟩ := checkModified_spec L ini fin h.shape.symm
  refine ⟨h1.trans h.1, fun i x => ?_⟩
  rcases h.2 i x with k | ⟨k1, u, v, k2, k3, k4⟩
  · left
    cases hc : cell ini i x with
    | none => exact h3 i x hc
    | some u =>
      rw [h2 i x u u hc (by rw [k]; exact hc)]
      simp [tmax_self]
  · right
    refine ⟨k1, u, _, k2, h2 i x u v k2 k3, ?_⟩
    split
    · refine ⟨(tmax_flag k4.1).symm, k4.2.imp_right fun h => ?_⟩
      rw [← KTag.not_known, ne_eq, tmax_known, not_and]
      intro _ e
      rw [h] at e
      cases e
    · exact k4

theorem Off.fixpoint {P : List Nat} {body : TEnv → Except KErr Exit}
    (hb : ∀ A x, body A = .ok x → Off (Chg P) A x.env) : ∀ (n : Nat) (A : TEnv) (x : Exit),
    fixpoint body n A = .ok x → Off (Chg P) A x.env
  | 0, A, x, h => by simp [Known.fixpoint] at h
  | n + 1, A, x, h => by
    rw [Known.fixpoint] at h
    split at h
    · cases h
    · rename_i ex hex
      have := Off.checkModified (L := ex.modified) (hb _ _ hex)
      split at h
      · rename_i env' hc
        rw [hc] at this
        exact Off.trans Chg.trans this (Off.fixpoint hb n _ _ h)
      · rename_i env' hc
        rw [hc] at this
        injection h with h
        subst h
        exact this

theorem analyze_off : ∀ (s : LStmt) (b : Bool), s.erase.Scoped b → ∀ (A : TEnv) (x : Exit),
    analyze s A = .ok x → OffB (Chg (assigned s)) b A x.env
  | .nil, b, hs, A, x, h => by
    simp only [analyze, Except.ok.injEq] at h
    subst h
    exact .of (.refl _)
  | .cons s t, b, hs, A, x, h => by
    simp only [analyze] at h
    split at h
    · cases h
    · rename_i y h1
      split at h
      · cases h
      · rename_i z h2
        injection h with h
        subst h
        exact ((analyze_off s b hs.1 _ _ h1).mono (Chg.mono fun z hz => List.mem_append_left _ hz)).trans
          Chg.trans ((analyze_off t b hs.2 _ _ h2).mono (Chg.mono fun z hz => List.mem_append_right _ hz))
  | .decl i v, b, hs, A, x, h => by
    simp only [analyze] at h
    split at h
    · cases h
    · rename_i env henv
      injection h with h
      subst h
      simp only [LStmt.erase, Stmt.Scoped] at hs
      subst hs
      exact .add henv
  | .assign i v e, b, hs, A, x, h => by
    simp only [analyze] at h
    split at h
    · cases h
    · split at h
      · cases h
      · rename_i old arr hg
        split at h
        · cases h
        · rename_i env henv
          injection h with h
          subst h
          refine .of (.set (fun u hu => ?_) henv)
          rw [hg] at hu
          injection hu with hu
          subst hu
          exact ⟨rfl, .inl (by simp [assigned])⟩
  | .sassign i v e, b, hs, A, x, h => by
    simp only [analyze] at h
    split at h
    · cases h
    · injection h with h
      subst h
      exact .of (.refl _)
  | .cassign i v e, b, hs, A, x, h => by
    simp only [analyze] at h
    split at h
    · cases h
    · injection h with h
      subst h
      exact .of (.refl _)
  | .check i l r, b, hs, A, x, h => by
    simp only [analyze, Except.ok.injEq] at h
    subst h
    exact .of (.refl _)
  | .ifThen i c t, b, hs, A, x, h => by
    simp only [analyze] at h
    split at h
    · cases h
    · split at h
      · cases h
      · rename_i y h1
        have ho := (analyze_off t false hs _ _ h1).2.2 rfl
        have hm := Off.merge ho (Off.refl _)
        split at h
        · injection h with h
          subst h
          exact .of hm
        · injection h with h
          subst h
          exact .of (hm.trans Chg.trans (Off.forget _))
  | .ifElse i c t e, b, hs, A, x, h => by
    simp only [analyze] at h
    split at h
    · cases h
    · split at h
      · cases h
      · rename_i y h1
        split at h
        · cases h
        · rename_i z h2
          have ho := ((analyze_off t false hs.1 _ _ h1).2.2 rfl).mono
            (Chg.mono fun z hz => List.mem_append_left (assigned e) hz)
          have ho' := ((analyze_off e false hs.2 _ _ h2).2.2 rfl).mono
            (Chg.mono fun z hz => List.mem_append_right (assigned t) hz)
          have hm := Off.merge ho ho'
          split at h
          · injection h with h
            subst h
            exact .of hm
          · injection h with h
            subst h
            exact .of (hm.trans Chg.trans (Off.forget _))
  | .while i c s, b, hs, A, x, h => by
    simp only [analyze] at h
    split at h
    · cases h
    · rename_i y h1
      have ho := Off.fixpoint (fun A x h => (analyze_off s false hs A x h).2.2 rfl) _ _ _ h1
      split at h
      · cases h
      · injection h with h
        subst h
        exact .of ho
      · injection h with h
        subst h
        exact .of (ho.trans Chg.trans (Off.forget _))
  | .block i s, b, hs, A, x, h => by
    simp only [analyze] at h
    split at h
    · cases h
    · rename_i y h1
      injection h with h
      subst h
      exact (analyze_off s true hs _ _ h1).block
  | .init i s, b, hs, A, x, h => analyze_off s b hs A x h

/-! ### What an analysis reports -/

theorem fixpoint_exit {body : TEnv → Except KErr Exit} : ∀ (n : Nat) (A : TEnv) (x : Exit),
    fixpoint body n A = .ok x → ∃ A' y, body A' = .ok y ∧ x = { y with env := x.env }
  | 0, A, x, h => by simp [Known.fixpoint] at h
  | n + 1, A, x, h => by
    rw [Known.fixpoint] at h
    split at h
    · cases h
    · rename_i ex hex
      split at h
      · exact fixpoint_exit n _ _ h
      · injection h with h
        subst h
        exact ⟨_, _, hex, rfl⟩

theorem analyze_modified : ∀ (s : LStmt) (A : TEnv) (x : Exit), analyze s A = .ok x →
    x.modified = outside s ∧ (x.constraints = false → Free s)
  | .nil, A, x, h => by
    simp only [analyze, Except.ok.injEq] at h
    subst h
    exact ⟨rfl, fun _ => trivial⟩
  | .cons s t, A, x, h => by
    simp only [analyze] at h
    split at h
    · cases h
    · rename_i y h1
      split at h
      · cases h
      · rename_i z h2
        injection h with h
        subst h
        obtain ⟨a, b⟩ := analyze_modified s _ _ h1
        obtain ⟨a', b'⟩ := analyze_modified t _ _ h2
        refine ⟨by simp [outside, a, a'], fun hc => ?_⟩
        simp only [Bool.or_eq_false_iff] at hc
        exact ⟨b hc.1, b' hc.2⟩
  | .decl i v, A, x, h => by
    simp only [analyze] at h
    split at h
    · cases h
    · injection h with h
      subst h
      exact ⟨rfl, fun _ => trivial⟩
  | .assign i v e, A, x, h => by
    simp only [analyze] at h
    split at h
    · cases h
    · split at h
      · cases h
      · split at h
        · cases h
        · injection h with h
          subst h
          exact ⟨rfl, fun _ => trivial⟩
  | .sassign i v e, A, x, h => by
    simp only [analyze] at h
    split at h
    · cases h
    · injection h with h
      subst h
      exact ⟨rfl, fun _ => trivial⟩
  | .cassign i v e, A, x, h => by
    simp only [analyze] at h
    split at h
    · cases h
    · injection h with h
      subst h
      exact ⟨rfl, fun h => by cases h⟩
  | .check i l r, A, x, h => by
    simp only [analyze, Except.ok.injEq] at h
    subst h
    exact ⟨rfl, fun h => by cases h⟩
  | .ifThen i c t, A, x, h => by
    simp only [analyze] at h
    split at h
    · cases h
    · split at h
      · cases h
      · rename_i y h1
        obtain ⟨a, b⟩ := analyze_modified t _ _ h1
        split at h
        · injection h with h
          subst h
          exact ⟨a, b⟩
        · injection h with h
          subst h
          exact ⟨a, b⟩
  | .ifElse i c t e, A, x, h => by
    simp only [analyze] at h
    split at h
    · cases h
    · split at h
      · cases h
      · rename_i y h1
        split at h
        · cases h
        · rename_i z h2
          obtain ⟨a, b⟩ := analyze_modified t _ _ h1
          obtain ⟨a', b'⟩ := analyze_modified e _ _ h2
          split at h
          · injection h with h
            subst h
            refine ⟨by simp [outside, a, a'], fun hc => ?_⟩
            simp only [Bool.or_eq_false_iff] at hc
            exact ⟨b hc.2, b' hc.1⟩
          · injection h with h
            subst h
            refine ⟨by simp [outside, a, a'], fun hc => ?_⟩
            simp only [Bool.or_eq_false_iff] at hc
            exact ⟨b hc.2, b' hc.1⟩
  | .while i c s, A, x, h => by
    simp only [analyze] at h
    split at h
    · cases h
    · rename_i y h1
      obtain ⟨A', z, hz, he⟩ := fixpoint_exit _ _ _ h1
      obtain ⟨a, b⟩ := analyze_modified s _ _ hz
      split at h
      · cases h
      · injection h with h
        subst h
        refine ⟨rfl, fun hc => b ?_⟩
        rw [he] at hc
        exact hc
      · injection h with h
        subst h
        refine ⟨rfl, fun hc => b ?_⟩
        rw [he] at hc
        exact hc
  | .block i s, A, x, h => by
    simp only [analyze] at h
    split at h
    · cases h
    · rename_i y h1
      injection h with h
      subst h
      have := analyze_modified s _ y h1
      exact this
  | .init i s, A, x, h => analyze_modified s A x h

end Verif.Known
