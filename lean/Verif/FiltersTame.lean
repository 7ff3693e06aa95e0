import Verif.FiltersSim

/-!
Programs without inline conditionals whose loop bodies are flat: everything a concrete run visits was
visited by the executor.
-/

set_option linter.unusedSectionVars false
set_option linter.unusedSimpArgs false
set_option linter.unusedVariables false

namespace Verif.Filters

open Verif.ModArith Verif.Algebra Verif.Exec Verif.Analysis

/-- No inline conditional. -/
def LExpr.NoIte : LExpr → Prop
  | .bin _ _ l r => l.NoIte ∧ r.NoIte
  | .un _ _ e => e.NoIte
  | .ite _ _ _ _ => False
  | _ => True

/-- No inline conditional. -/
def LStmt.NoIte : LStmt → Prop
  | .nil | .decl _ _ => True
  | .cons a b => a.NoIte ∧ b.NoIte
  | .assign _ _ e | .sassign _ _ e | .cassign _ _ e => e.NoIte
  | .check _ l r => l.NoIte ∧ r.NoIte
  | .ifThen _ c t => c.NoIte ∧ t.NoIte
  | .ifElse _ c t e => c.NoIte ∧ t.NoIte ∧ e.NoIte
  | .while _ c b => c.NoIte ∧ b.NoIte
  | .block _ b | .init _ b => b.NoIte

theorem noIte_skipped {field : Int} {sigs : Nat → AState} {env : List (List (Nat × V))} :
    ∀ {e : LExpr}, e.NoIte → skipped field sigs env e = []
  | .num _ _, _ => rfl
  | .var _ _, _ => rfl
  | .sig _ _, _ => rfl
  | .bin _ _ l r, h => by simp [skipped, noIte_skipped h.1, noIte_skipped h.2]
  | .un _ _ e, h => by simp [skipped, noIte_skipped (e := e) h]

variable {A : Analysis}

theorem covers_none : Covers A Visits.none := ⟨by simp [Visits.none], by simp [Visits.none]⟩

theorem covers_unseen {field : Int} {st : St} {e : LExpr} (h : e.NoIte) : Covers A (unseen field st e) :=
  ⟨by simp [unseen], by simp [unseen, noIte_skipped h]⟩

/-- Flat statements visit the same things when variables and signal states are the same. -/
theorem flat_visits (fuel : Nat) (field : Int) : ∀ (s : LStmt), s.erase.Flat → ∀ (st st' : St) (l sp : Visits),
    execV fuel field s st = .ok (st', l, sp) → ∀ stB : St, stB.env = st.env → stB.sigs = st.sigs →
      stB.unknown = st.unknown → execV fuel field s stB = .ok ({ stB with env := st'.env }, l, sp)
  | .nil, _, st, st', l, sp, h, stB, h1, h2, h3 => by
    simp only [execV, Except.ok.injEq, Prod.mk.injEq] at h ⊢
    obtain ⟨rfl, rfl, rfl⟩ := h
    refine ⟨?_, rfl, rfl⟩
    rw [← h1]
  | .cons a b, hf, st, st', l, sp, h, stB, h1, h2, h3 => by
    simp only [execV] at h ⊢
    split at h
    · cases h
    · rename_i st1 l1 s1 hx
      split at h
      · cases h
      · rename_i st2 l2 s2 hy
        simp only [Except.ok.injEq, Prod.mk.injEq] at h
        obtain ⟨rfl, rfl, rfl⟩ := h
        obtain ⟨e1, _⟩ := flat_env fuel field a.erase hf.1 _ _ _ (execV_exec hx)
        rw [flat_visits fuel field a hf.1 _ _ _ _ hx stB h1 h2 h3]
        simp only
        rw [flat_visits fuel field b hf.2 _ _ _ _ hy { stB with env := st1.env } rfl
          (by rw [e1]; exact h2) (by rw [e1]; exact h3)]
  | .decl i x, hf, st, st', l, sp, h, stB, h1, h2, h3 => by
    simp only [execV] at h ⊢
    split at h
    · cases h
    · rename_i st1 r hx
      simp only [Except.ok.injEq, Prod.mk.injEq] at h
      obtain ⟨rfl, rfl, rfl⟩ := h
      obtain ⟨_, e2⟩ := flat_env fuel field (.decl x) hf _ _ _ hx
      rw [e2 stB h1 h2 h3]
  | .assign i x e, hf, st, st', l, sp, h, stB, h1, h2, h3 => by
    simp only [execV] at h ⊢
    split at h
    · cases h
    · rename_i st1 r hx
      simp only [Except.ok.injEq, Prod.mk.injEq] at h
      obtain ⟨rfl, rfl, rfl⟩ := h
      obtain ⟨_, e2⟩ := flat_env fuel field (.assign x e.erase) hf _ _ _ hx
      rw [e2 stB h1 h2 h3]
      simp only [seen, unseen, h1, h2]
  | .block i b, hf, st, st', l, sp, h, stB, h1, h2, h3 => by
    simp only [execV] at h ⊢
    split at h
    · cases h
    · rename_i st1 l1 s1 hx
      simp only [Except.ok.injEq, Prod.mk.injEq] at h
      obtain ⟨rfl, rfl, rfl⟩ := h
      rw [flat_visits fuel field b hf _ _ _ _ hx { stB with env := [] :: stB.env } (by rw [h1]) h2 h3]
  | .init i b, hf, st, st', l, sp, h, stB, h1, h2, h3 => by
    simp only [execV] at h ⊢
    split at h
    · cases h
    · rename_i st1 l1 s1 hx
      simp only [Except.ok.injEq, Prod.mk.injEq] at h
      obtain ⟨rfl, rfl, rfl⟩ := h
      rw [flat_visits fuel field b hf _ _ _ _ hx stB h1 h2 h3]
  | .sassign _ _ _, hf, _, _, _, _, _, _, _, _, _ => hf.elim
  | .cassign _ _ _, hf, _, _, _, _, _, _, _, _, _ => hf.elim
  | .check _ _ _, hf, _, _, _, _, _, _, _, _, _ => hf.elim
  | .ifThen _ _ _, hf, _, _, _, _, _, _, _, _, _ => hf.elim
  | .ifElse _ _ _ _, hf, _, _, _, _, _, _, _, _, _ => hf.elim
  | .while _ _ _, hf, _, _, _, _, _, _, _, _, _ => hf.elim

/-- What a conditional without second branch leaves out is covered if that of its branch is. -/
theorem conditionalV_covers {field : Int} {c : LExpr} (hn : c.NoIte) {t : St → ExV}
    {e : Option (St → ExV)}
    (ht : ∀ st st' l s, t st = .ok (st', l, s) → Covers A l → Covers A s)
    (he : ∀ f, e = some f → ∀ st st' l s, f st = .ok (st', l, s) → Covers A l → Covers A s)
    {st st' : St} {l s : Visits} {cr : Option Bool}
    (h : conditionalV field c t e st = .ok (st', l, s, cr)) (hl : Covers A l) : Covers A s := by
  unfold conditionalV at h
  split at h
  · cases h
  · split at h
    · split at h
      · cases h
      · rename_i hx
        simp only [Except.ok.injEq, Prod.mk.injEq] at h
        obtain ⟨rfl, rfl, rfl, rfl⟩ := h
        exact Covers.append.2 ⟨covers_unseen hn, ht _ _ _ _ hx (Covers.append.1 hl).2⟩
    · split at h
      · simp only [Except.ok.injEq, Prod.mk.injEq] at h
        obtain ⟨rfl, rfl, rfl, rfl⟩ := h
        exact covers_unseen hn
      · rename_i f
        split at h
        · cases h
        · rename_i hx
          simp only [Except.ok.injEq, Prod.mk.injEq] at h
          obtain ⟨rfl, rfl, rfl, rfl⟩ := h
          exact Covers.append.2 ⟨covers_unseen hn, he f rfl _ _ _ _ hx (Covers.append.1 hl).2⟩
    · split at h
      · cases h
      · rename_i st1 l1 s1 hx
        split at h
        · simp only [Except.ok.injEq, Prod.mk.injEq] at h
          obtain ⟨rfl, rfl, rfl, rfl⟩ := h
          exact Covers.append.2 ⟨covers_unseen hn, ht _ _ _ _ hx (Covers.append.1 hl).2⟩
        · rename_i f
          split at h
          · cases h
          · split at h
            · cases h
            · rename_i hy
              simp only [Except.ok.injEq, Prod.mk.injEq] at h
              obtain ⟨rfl, rfl, rfl, rfl⟩ := h
              obtain ⟨a1, a2⟩ := Covers.append.1 hl
              exact Covers.append.2 ⟨Covers.append.2 ⟨covers_unseen hn,
                ht _ _ _ _ hx (Covers.append.1 a1).2⟩, he f rfl _ _ _ _ hy a2⟩

/-- The third pass over a flat body visits what the second did. -/
theorem third_eq {fuel : Nat} {field : Int} {c : LExpr} {b : LStmt} (hf : b.erase.Flat)
    (hs : b.erase.Scoped false) {st st1 st2 : St} {l1 s1 l2 s2 : Visits} {cr : Option Bool}
    (hx : conditionalV field c (execV fuel field b) none st = .ok (st1, l1, s1, none))
    (hy : conditionalV field c (execV fuel field b) none st1 = .ok (st2, l2, s2, cr)) :
    thirdPass (conditionalV field c (execV fuel field b) none) st2 = l2 ++ s2 := by
  have hx' := hx
  unfold conditionalV at hx
  split at hx
  · cases hx
  · rename_i vc hvc
    split at hx
    · split at hx
      · cases hx
      · simp at hx
    · simp at hx
    · rename_i hg
      split at hx
      · cases hx
      · rename_i q1 m1 n1 ht1
        simp only [Except.ok.injEq, Prod.mk.injEq] at hx
        obtain ⟨rfl, rfl, rfl, _⟩ := hx
        have g1 := execV_exec ht1
        obtain ⟨e1, _⟩ := flat_env fuel field b.erase hf _ _ _ g1
        have hsm : SmE st.env q1.env := (exec_forgets fuel field b.erase false _ _ _ hs rfl g1).1.1
        unfold conditionalV at hy
        split at hy
        · cases hy
        · rename_i vd hvd
          have hg1 : getBool vd field = none := getBool_mono (B := q1.env) hsm c.erase hvc hvd hg
          rw [hg1] at hy
          simp only at hy
          split at hy
          · cases hy
          · rename_i q2 m2 n2 ht2
            simp only [Except.ok.injEq, Prod.mk.injEq] at hy
            obtain ⟨rfl, rfl, rfl, _⟩ := hy
            have g2 := execV_exec ht2
            obtain ⟨e2, _⟩ := flat_env fuel field b.erase hf _ _ _ g2
            have henv : q2.env = q1.env :=
              (flat_again fuel field b.erase hf _ _ _ _ g1 g2 rfl rfl).1 hs (SmE.refl _)
            have hsig : q2.sigs = q1.sigs := by rw [e2]; rfl
            have ht3 := flat_visits fuel field b hf _ _ _ _ ht2
              (enter (leave (leave st q1) q2)) henv hsig rfl
            have hev : eval field (leave (leave st q1) q2).sigs (leave (leave st q1) q2).env c.erase = .ok vd := by
              show eval field q2.sigs q2.env c.erase = .ok vd
              rw [henv, hsig]; exact hvd
            have hseen : seen field (leave (leave st q1) q2) c = seen field (leave st q1) c := by
              show (⟨[], visits field q2.sigs q2.env c⟩ : Visits) = ⟨[], visits field q1.sigs q1.env c⟩
              rw [henv, hsig]
            have hunseen : unseen field (leave (leave st q1) q2) c = unseen field (leave st q1) c := by
              show (⟨[], skipped field q2.sigs q2.env c⟩ : Visits) = ⟨[], skipped field q1.sigs q1.env c⟩
              rw [henv, hsig]
            unfold thirdPass conditionalV
            rw [hev]
            simp only [hg1, ht3, hseen, hunseen]

theorem whileLoopV_covers {fuel : Nat} {field : Int} {c : LExpr} {b : LStmt} (hn : c.NoIte)
    (hf : b.erase.Flat) (hs : b.erase.Scoped false)
    (hb : ∀ st st' l s, execV fuel field b st = .ok (st', l, s) → Covers A l → Covers A s) :
    ∀ (n : Nat) (st st' : St) (l s : Visits),
      whileLoopV (conditionalV field c (execV fuel field b) none) n st = .ok (st', l, s) →
      Covers A l → Covers A s
  | 0, st, st', l, s, h, hl => by simp [whileLoopV] at h
  | n + 1, st, st', l, s, h, hl => by
    have step : ∀ {st st' l s cr}, conditionalV field c (execV fuel field b) none st = .ok (st', l, s, cr) →
        Covers A l → Covers A s := fun h => conditionalV_covers hn hb (by intro f hf; cases hf) h
    rw [whileLoopV] at h
    split at h
    · cases h
    · rename_i st1 l1 s1 hx
      split at h
      · cases h
      · rename_i st2 l2 s2 cr hy
        simp only [Except.ok.injEq, Prod.mk.injEq] at h
        obtain ⟨rfl, rfl, rfl⟩ := h
        obtain ⟨a1, a2⟩ := Covers.append.1 hl
        rw [third_eq hf hs hx hy]
        exact Covers.append.2 ⟨Covers.append.2 ⟨step hx a1, step hy a2⟩,
          Covers.append.2 ⟨a2, step hy a2⟩⟩
    · rename_i st1 l1 s1 hx
      simp only [Except.ok.injEq, Prod.mk.injEq] at h
      obtain ⟨rfl, rfl, rfl⟩ := h
      exact step hx hl
    · rename_i st1 l1 s1 hx
      split at h
      · cases h
      · rename_i st2 l2 s2 hy
        simp only [Except.ok.injEq, Prod.mk.injEq] at h
        obtain ⟨rfl, rfl, rfl⟩ := h
        obtain ⟨a1, a2⟩ := Covers.append.1 hl
        exact Covers.append.2 ⟨step hx a1, whileLoopV_covers hn hf hs hb n _ _ _ _ hy a2⟩

/-- The visits left out are covered by any analysis that covers those made. -/
theorem tame_covers (fuel : Nat) (field : Int) : ∀ (s : LStmt) (q : Bool), s.NoIte → s.erase.Tame →
    s.erase.Scoped q → ∀ (st st' : St) (l sp : Visits), execV fuel field s st = .ok (st', l, sp) →
      Covers A l → Covers A sp
  | .nil, q, hn, ht, hs, st, st', l, sp, h, hl => by
    simp only [execV, Except.ok.injEq, Prod.mk.injEq] at h
    obtain ⟨rfl, rfl, rfl⟩ := h
    exact covers_none
  | .cons a b, q, hn, ht, hs, st, st', l, sp, h, hl => by
    simp only [execV] at h
    split at h
    · cases h
    · rename_i st1 l1 s1 hx
      split at h
      · cases h
      · rename_i st2 l2 s2 hy
        simp only [Except.ok.injEq, Prod.mk.injEq] at h
        obtain ⟨rfl, rfl, rfl⟩ := h
        obtain ⟨a1, a2⟩ := Covers.append.1 hl
        exact Covers.append.2 ⟨tame_covers fuel field a q hn.1 ht.1 hs.1 _ _ _ _ hx a1,
          tame_covers fuel field b q hn.2 ht.2 hs.2 _ _ _ _ hy a2⟩
  | .decl i x, q, hn, ht, hs, st, st', l, sp, h, hl => by
    simp only [execV] at h
    split at h
    · cases h
    · simp only [Except.ok.injEq, Prod.mk.injEq] at h
      obtain ⟨rfl, rfl, rfl⟩ := h
      exact covers_none
  | .assign i x e, q, hn, ht, hs, st, st', l, sp, h, hl => by
    simp only [execV] at h
    split at h
    · cases h
    · simp only [Except.ok.injEq, Prod.mk.injEq] at h
      obtain ⟨rfl, rfl, rfl⟩ := h
      exact covers_unseen hn
  | .sassign i x e, q, hn, ht, hs, st, st', l, sp, h, hl => by
    simp only [execV] at h
    split at h
    · cases h
    · simp only [Except.ok.injEq, Prod.mk.injEq] at h
      obtain ⟨rfl, rfl, rfl⟩ := h
      exact covers_unseen hn
  | .cassign i x e, q, hn, ht, hs, st, st', l, sp, h, hl => by
    simp only [execV] at h
    split at h
    · cases h
    · simp only [Except.ok.injEq, Prod.mk.injEq] at h
      obtain ⟨rfl, rfl, rfl⟩ := h
      exact covers_unseen hn
  | .check i x e, q, hn, ht, hs, st, st', l, sp, h, hl => by
    simp only [execV] at h
    split at h
    · cases h
    · simp only [Except.ok.injEq, Prod.mk.injEq] at h
      obtain ⟨rfl, rfl, rfl⟩ := h
      exact Covers.append.2 ⟨covers_unseen hn.1, covers_unseen hn.2⟩
  | .ifThen i c t, q, hn, ht, hs, st, st', l, sp, h, hl => by
    simp only [execV] at h
    split at h
    · cases h
    · rename_i hx
      simp only [Except.ok.injEq, Prod.mk.injEq] at h
      obtain ⟨rfl, rfl, rfl⟩ := h
      exact conditionalV_covers hn.1
        (fun st st' l s => tame_covers fuel field t false hn.2 ht hs st st' l s)
        (by intro f hf; cases hf) hx (Covers.append.1 hl).2
  | .ifElse i c t e, q, hn, ht, hs, st, st', l, sp, h, hl => by
    simp only [execV] at h
    split at h
    · cases h
    · rename_i hx
      simp only [Except.ok.injEq, Prod.mk.injEq] at h
      obtain ⟨rfl, rfl, rfl⟩ := h
      exact conditionalV_covers hn.1
        (fun st st' l s => tame_covers fuel field t false hn.2.1 ht.1 hs.1 st st' l s)
        (by
          intro f hf
          injection hf with hf
          subst hf
          exact fun st st' l s => tame_covers fuel field e false hn.2.2 ht.2 hs.2 st st' l s)
        hx (Covers.append.1 hl).2
  | .while i c b, q, hn, ht, hs, st, st', l, sp, h, hl => by
    simp only [execV] at h
    split at h
    · cases h
    · rename_i hx
      simp only [Except.ok.injEq, Prod.mk.injEq] at h
      obtain ⟨rfl, rfl, rfl⟩ := h
      exact whileLoopV_covers hn.1 ht hs
        (fun st st' l s => tame_covers fuel field b false hn.2 (Stmt.Flat.tame ht) hs st st' l s)
        fuel _ _ _ _ hx (Covers.append.1 hl).2
  | .block i b, q, hn, ht, hs, st, st', l, sp, h, hl => by
    simp only [execV] at h
    split at h
    · cases h
    · rename_i hx
      simp only [Except.ok.injEq, Prod.mk.injEq] at h
      obtain ⟨rfl, rfl, rfl⟩ := h
      exact tame_covers fuel field b true hn ht hs _ _ _ _ hx (Covers.append.1 hl).2
  | .init i b, q, hn, ht, hs, st, st', l, sp, h, hl => by
    simp only [execV] at h
    split at h
    · cases h
    · rename_i hx
      simp only [Except.ok.injEq, Prod.mk.injEq] at h
      obtain ⟨rfl, rfl, rfl⟩ := h
      exact tame_covers fuel field b q hn ht hs _ _ _ _ hx (Covers.append.1 hl).2

end Verif.Filters
