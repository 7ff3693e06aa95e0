import Verif.ExecLog

/-!
Programs whose loops with unknown condition are always stable after two passes, and the net effect
of statements on the pending conditions.
-/

set_option linter.unusedSectionVars false
set_option linter.unusedSimpArgs false

namespace Verif.Exec

open Verif.ModArith Verif.Algebra

/-- No branches, loops or signals: only declarations, assignments of variables, blocks and returns. -/
def Stmt.Flat : Stmt → Prop
  | .skip | .decl _ | .assign _ _ | .ret _ => True
  | .seq a b => a.Flat ∧ b.Flat
  | .block b => b.Flat
  | _ => False

/-- All bodies of loops are flat. -/
def Stmt.Tame : Stmt → Prop
  | .seq a b => a.Tame ∧ b.Tame
  | .ifte _ t none => t.Tame
  | .ifte _ t (some e) => t.Tame ∧ e.Tame
  | .while _ b => b.Flat
  | .block b => b.Tame
  | _ => True

/-- No loops. -/
def Stmt.LoopFree : Stmt → Prop
  | .seq a b => a.LoopFree ∧ b.LoopFree
  | .ifte _ t none => t.LoopFree
  | .ifte _ t (some e) => t.LoopFree ∧ e.LoopFree
  | .while _ _ => False
  | .block b => b.LoopFree
  | _ => True

theorem Stmt.Flat.tame : ∀ {s : Stmt}, s.Flat → s.Tame
  | .skip, _ | .decl _, _ | .assign _ _, _ | .ret _, _ => trivial
  | .seq _ _, h => ⟨Stmt.Flat.tame h.1, Stmt.Flat.tame h.2⟩
  | .block b, h => Stmt.Flat.tame (s := b) h

theorem Stmt.LoopFree.tame : ∀ {s : Stmt}, s.LoopFree → s.Tame
  | .skip, _ | .decl _, _ | .assign _ _, _ | .ret _, _ | .sassign _ _, _ | .cassign _ _, _
  | .check _ _, _ => trivial
  | .seq _ _, h => ⟨Stmt.LoopFree.tame h.1, Stmt.LoopFree.tame h.2⟩
  | .ifte _ t none, h => Stmt.LoopFree.tame (s := t) h
  | .ifte _ _ (some _), h => ⟨Stmt.LoopFree.tame h.1, Stmt.LoopFree.tame h.2⟩
  | .block b, h => Stmt.LoopFree.tame (s := b) h

/-! ### Flat bodies -/

theorem blockSet_fix {b b1 c : List (Nat × V)} {x : Nat} (h : blockSet b x .nonQuadratic = some b1)
    (hs : List.Forall₂ (fun a b => a.1 = b.1 ∧ (b.2 = a.2 ∨ b.2 = (.nonQuadratic : V))) b1 c) :
    blockSet c x .nonQuadratic = some c := by
  induction b generalizing b1 c with
  | nil => simp [blockSet] at h
  | cons a b ih =>
    obtain ⟨y, v⟩ := a
    simp only [blockSet] at h
    split at h
    · rename_i hy
      injection h with h
      subst h
      cases hs with
      | @cons _ z _ c hz hc =>
        obtain ⟨z1, z2⟩ := z
        obtain ⟨h1, h2⟩ := hz
        simp only at h1 h2
        have : z2 = .nonQuadratic := by rcases h2 with h | h <;> exact h
        subst this
        simp [blockSet, ← h1, hy]
    · rename_i hy
      cases hb : blockSet b x .nonQuadratic with
      | none => rw [hb] at h; cases h
      | some b2 =>
        rw [hb] at h
        injection h with h
        subst h
        cases hs with
        | @cons _ z _ c hz hc =>
          obtain ⟨z1, z2⟩ := z
          obtain ⟨h1, h2⟩ := hz
          simp only at h1 h2
          simp [blockSet, ← h1, hy, ih hb hc]

theorem blockSet_names {β : Type} (b : List (Nat × β)) (x : Nat) (v : β) :
    (x ∈ b.map (·.1) ∧ ∃ b', blockSet b x v = some b' ∧ b'.map (·.1) = b.map (·.1)) ∨
    (x ∉ b.map (·.1) ∧ blockSet b x v = none) := by
  induction b with
  | nil => exact .inr ⟨by simp, rfl⟩
  | cons a b ih =>
    obtain ⟨y, u⟩ := a
    by_cases hy : y = x
    · left
      exact ⟨by simp [hy], (y, v) :: b, by simp [blockSet, hy], by simp⟩
    · rcases ih with ⟨h1, b', h2, h3⟩ | ⟨h1, h2⟩
      · left
        exact ⟨List.mem_cons_of_mem _ h1, (y, u) :: b', by simp [blockSet, hy, h2], by simp [h3]⟩
      · right
        refine ⟨?_, by simp [blockSet, hy, h2]⟩
        rw [List.map_cons, List.mem_cons]
        rintro (h | h)
        · exact hy h.symm
        · exact h1 h

theorem sm_names {b c : List (Nat × V)}
    (hs : List.Forall₂ (fun a b => a.1 = b.1 ∧ (b.2 = a.2 ∨ b.2 = (.nonQuadratic : V))) b c) :
    b.map (·.1) = c.map (·.1) := by
  induction hs with
  | nil => rfl
  | cons h _ ih => simp [h.1, ih]

theorem envSet_fix {A A1 B : List (List (Nat × V))} {x : Nat} (h : envSet A x .nonQuadratic = some A1)
    (hs : SmE A1 B) : envSet B x .nonQuadratic = some B := by
  induction A generalizing A1 B with
  | nil => simp [envSet] at h
  | cons b A ih =>
    simp only [envSet] at h
    split at h
    · rename_i b' hb
      injection h with h
      subst h
      cases hs with
      | @cons _ c _ B hc hB => simp [envSet, blockSet_fix hb hc]
    · rename_i hb
      cases hA : envSet A x .nonQuadratic with
      | none => rw [hA] at h; cases h
      | some A2 =>
        rw [hA] at h
        injection h with h
        subst h
        cases hs with
        | @cons _ c _ B hc hB =>
          have hn : blockSet c x .nonQuadratic = none := by
            rcases blockSet_names b x (.nonQuadratic : V) with ⟨_, _, h2, _⟩ | ⟨h1, _⟩
            · rw [hb] at h2; cases h2
            · rcases blockSet_names c x (.nonQuadratic : V) with ⟨g1, _⟩ | ⟨_, g2⟩
              · rw [← sm_names hc] at g1; exact absurd g1 h1
              · exact g2
          simp [envSet, hn, ih hA hB]

/-- A flat statement only changes the variables, depending on variables and signal states alone. -/
theorem flat_env (fuel : Nat) (field : Int) :
    ∀ (s : Stmt), s.Flat → ∀ (st st' : St) (r : Option V), exec fuel field s st = .ok (st', r) →
      st' = { st with env := st'.env } ∧
      ∀ stB : St, stB.env = st.env → stB.sigs = st.sigs → stB.unknown = st.unknown →
        exec fuel field s stB = .ok ({ stB with env := st'.env }, r)
  | .skip, _, st, st', r, h => by
    simp only [exec, Except.ok.injEq, Prod.mk.injEq] at h
    obtain ⟨rfl, rfl⟩ := h
    refine ⟨rfl, fun stB h1 _ _ => ?_⟩
    simp only [exec, ← h1]
  | .decl x, _, st, st', r, h => by
    simp only [exec] at h
    split at h
    · cases h
    · rename_i env henv
      simp only [Except.ok.injEq, Prod.mk.injEq] at h
      obtain ⟨rfl, rfl⟩ := h
      refine ⟨rfl, fun stB h1 _ _ => ?_⟩
      simp only [exec, h1, henv]
  | .assign x e, _, st, st', r, h => by
    simp only [exec] at h
    split at h
    · cases h
    · rename_i v hv
      split at h
      · cases h
      · rename_i env henv
        simp only [Except.ok.injEq, Prod.mk.injEq] at h
        obtain ⟨rfl, rfl⟩ := h
        refine ⟨rfl, fun stB h1 h2 h3 => ?_⟩
        simp only [exec, h1, h2, h3, hv, henv]
  | .seq a b, hf, st, st', r, h => by
    simp only [exec] at h
    split at h
    · cases h
    · rename_i st1 v h1
      simp only [Except.ok.injEq, Prod.mk.injEq] at h
      obtain ⟨rfl, rfl⟩ := h
      obtain ⟨g1, g2⟩ := flat_env fuel field a hf.1 _ _ _ h1
      refine ⟨g1, fun stB k1 k2 k3 => ?_⟩
      simp only [exec, g2 stB k1 k2 k3]
    · rename_i st1 h1
      obtain ⟨g1, g2⟩ := flat_env fuel field a hf.1 _ _ _ h1
      obtain ⟨e1, e2⟩ := flat_env fuel field b hf.2 _ _ _ h
      refine ⟨by rw [e1, g1], fun stB k1 k2 k3 => ?_⟩
      simp only [exec, g2 stB k1 k2 k3]
      rw [e2 { stB with env := st1.env } rfl (by rw [g1]; exact k2) (by rw [g1]; exact k3)]
  | .block b, hf, st, st', r, h => by
    simp only [exec] at h
    split at h
    · cases h
    · rename_i st1 r1 h1
      simp only [Except.ok.injEq, Prod.mk.injEq] at h
      obtain ⟨rfl, rfl⟩ := h
      obtain ⟨g1, g2⟩ := flat_env fuel field b hf _ _ _ h1
      refine ⟨by rw [g1], fun stB k1 k2 k3 => ?_⟩
      simp only [exec]
      rw [g2 { stB with env := [] :: stB.env } (by simp [k1]) k2 k3]
  | .ret e, _, st, st', r, h => by
    simp only [exec] at h
    split at h
    · cases h
    · rename_i v hv
      simp only [Except.ok.injEq, Prod.mk.injEq] at h
      obtain ⟨rfl, rfl⟩ := h
      refine ⟨rfl, fun stB h1 h2 h3 => ?_⟩
      have : ({ stB with env := st.env } : St) = stB := by rw [← h1]
      rw [this]
      simp only [exec, h1, h2, h3, hv]

/-- A block in which nothing is known. -/
def Dark (a : List (Nat × V)) : Prop := ∀ x ∈ a, x.2 = .nonQuadratic

theorem Dark.eq {a b : List (Nat × V)} (ha : Dark a)
    (hs : List.Forall₂ (fun a b => a.1 = b.1 ∧ (b.2 = a.2 ∨ b.2 = (.nonQuadratic : V))) a b) : b = a := by
  induction hs with
  | nil => rfl
  | @cons x y a b h _ ih =>
    have hx := ha x (by simp)
    rw [ih fun z hz => ha z (List.mem_cons_of_mem _ hz)]
    congr 1
    refine Prod.ext h.1.symm ?_
    rcases h.2 with h | h
    · exact h
    · rw [h, hx]

/-- A second execution of a flat statement in an unknown block changes nothing. -/
theorem flat_again (fuel : Nat) (field : Int) :
    ∀ (s : Stmt), s.Flat → ∀ (st st1 stB stB' : St),
      exec fuel field s st = .ok (st1, none) → exec fuel field s stB = .ok (stB', none) →
      st.unknown = true → stB.unknown = true →
      (s.Scoped false → SmE st1.env stB.env → stB'.env = stB.env) ∧
      (s.Scoped true → ∀ a A B, Dark a → st.env = a :: A → stB.env = a :: B →
        SmE st1.env.tail B → ∃ a1, Dark a1 ∧ st1.env = a1 :: st1.env.tail ∧ stB'.env = a1 :: B)
  | .skip, _, st, st1, stB, stB', h, h', hu, hu' => by
    simp only [exec, Except.ok.injEq, Prod.mk.injEq] at h h'
    obtain ⟨rfl, _⟩ := h
    obtain ⟨rfl, _⟩ := h'
    exact ⟨fun _ _ => rfl, fun _ a A B ha h1 h2 _ => ⟨a, ha, by rw [h1]; rfl, h2⟩⟩
  | .decl x, _, st, st1, stB, stB', h, h', hu, hu' => by
    refine ⟨fun hs => by simp [Stmt.Scoped] at hs, fun _ a A B ha h1 h2 hsm => ?_⟩
    simp only [exec, h1, h2, envAdd, Except.ok.injEq, Prod.mk.injEq] at h h'
    obtain ⟨rfl, _⟩ := h
    obtain ⟨rfl, _⟩ := h'
    refine ⟨(x, .nonQuadratic) :: a, ?_, rfl, rfl⟩
    intro z hz
    rcases List.mem_cons.1 hz with rfl | hz
    · rfl
    · exact ha z hz
  | .assign x e, _, st, st1, stB, stB', h, h', hu, hu' => by
    simp only [exec, hu, hu', if_true] at h h'
    split at h
    · cases h
    · split at h
      · cases h
      · rename_i env henv
        split at h'
        · cases h'
        · split at h'
          · cases h'
          · rename_i env' henv'
            simp only [Except.ok.injEq, Prod.mk.injEq] at h h'
            obtain ⟨rfl, _⟩ := h
            obtain ⟨rfl, _⟩ := h'
            have key : SmE env stB.env → env' = stB.env := by
              intro hsm
              rw [envSet_fix henv hsm] at henv'
              injection henv' with henv'
              exact henv'.symm
            refine ⟨fun _ hsm => key hsm, fun _ a A B ha h1 h2 hsm => ?_⟩
            have hs := envSet_smash henv
            rw [h1] at hs
            cases env with
            | nil => cases hs
            | cons a1 A1 =>
              cases hs with
              | cons e1 e2 =>
                have := ha.eq e1
                subst this
                have hk := key (by rw [h2]; exact .cons (List.forall₂_same.2 fun _ _ => ⟨rfl, .inl rfl⟩) hsm)
                exact ⟨a1, ha, rfl, hk.trans h2⟩
  | .seq a b, hf, st, st2, stB, stB2, h, h', hu, hu' => by
    simp only [exec] at h h'
    split at h
    · cases h
    · simp at h
    · rename_i st1 h1
      split at h'
      · cases h'
      · simp at h'
      · rename_i stB1 h1'
        have hu1 : st1.unknown = true := by rw [exec_unknown fuel field a _ _ _ h1]; exact hu
        have hu1' : stB1.unknown = true := by rw [exec_unknown fuel field a _ _ _ h1']; exact hu'
        obtain ⟨a1, a2⟩ := flat_again fuel field a hf.1 _ _ _ _ h1 h1' hu hu'
        obtain ⟨b1, b2⟩ := flat_again fuel field b hf.2 _ _ _ _ h h' hu1 hu1'
        refine ⟨fun hs hsm => ?_, fun hs a A B ha e1 e2 hsm => ?_⟩
        · have s12 : SmE st1.env st2.env := (exec_forgets fuel field b false _ _ _ hs.2 hu1 h).1.1
          have e1 := a1 hs.1 (s12.trans hsm)
          rw [← e1] at hsm
          exact (b1 hs.2 hsm).trans e1
        · have s12 : SmE st1.env.tail st2.env.tail :=
            (exec_forgets fuel field b true _ _ _ hs.2 hu1 h).1.1
          obtain ⟨d, c1, c2, c3⟩ := a2 hs.1 a A B ha e1 e2 (s12.trans hsm)
          exact b2 hs.2 d _ B c1 c2 c3 hsm
  | .block b, hf, st, st2, stB, stB2, h, h', hu, hu' => by
    simp only [exec] at h h'
    split at h
    · cases h
    · rename_i st1 r1 h1
      split at h'
      · cases h'
      · rename_i stB1 r1' h1'
        simp only [Except.ok.injEq, Prod.mk.injEq] at h h'
        obtain ⟨rfl, rfl⟩ := h
        obtain ⟨rfl, rfl⟩ := h'
        obtain ⟨_, a2⟩ := flat_again fuel field b hf _ _ _ _ h1 h1' hu hu'
        have key : b.Scoped true → SmE st1.env.tail stB.env → stB1.env.tail = stB.env := by
          intro hs hsm
          obtain ⟨c, _, _, c5⟩ := a2 hs [] st.env stB.env (by intro z hz; cases hz) rfl rfl hsm
          rw [c5]; rfl
        refine ⟨fun hs hsm => key hs hsm, fun hs a A B ha e1 e2 hsm => ?_⟩
        have hsmA : SmE st.env st1.env.tail := by
          have := (exec_forgets fuel field b true _ _ _ hs (by exact hu) h1).1.1
          exact this
        rw [e1] at hsmA
        cases hT : st1.env.tail with
        | nil => rw [hT] at hsmA; cases hsmA
        | cons a1 A1 =>
          rw [hT] at hsmA
          cases hsmA with
          | cons k1 k2 =>
            have := ha.eq k1
            subst this
            have hsm' : SmE A1 B := by
              have : SmE st1.env.tail.tail B := hsm
              rwa [hT] at this
            have hk := key hs (by
              rw [hT, e2]
              exact .cons (List.forall₂_same.2 fun _ _ => ⟨rfl, .inl rfl⟩) hsm')
            refine ⟨a1, ha, ?_, hk.trans e2⟩
            rfl
  | .ret e, _, st, st1, stB, stB', h, h', hu, hu' => by
    simp only [exec] at h
    split at h
    · cases h
    · simp at h

/-! ### Loops with flat bodies are stable -/

theorem whileLoop_stable {fuel : Nat} {field : Int} {c : Expr} {b : Stmt} (hf : b.Flat)
    (hs : b.Scoped false) :
    ∀ (n : Nat) (st st' : St) (r : Option V),
      whileLoop (conditional field c (exec fuel field b) none) n st = .ok (st', r) →
      st'.unstable = st.unstable
  | 0, st, st', r, h => by simp [whileLoop] at h
  | n + 1, st, st', r, h => by
    have step1 : ∀ sta stb r cr, conditional field c (exec fuel field b) none sta = .ok (stb, r, cr) →
        stb.unstable = sta.unstable := by
      intro sta stb r cr h
      obtain ⟨vc, _, hc⟩ := conditional_cases h
      clear h
      rcases hc with ⟨_, _, h⟩ | ⟨_, _, _, rfl, _⟩ | ⟨f, _, _, hf', h⟩ | ⟨_, _, _, st1, h, rfl⟩ |
        ⟨f, st1, r1, last, st2, r2, _, _, hf', _⟩
      · rw [(flat_env fuel field b hf _ _ _ h).1]
      · rfl
      · cases hf'
      · show st1.unstable = _
        rw [(flat_env fuel field b hf _ _ _ h).1]; rfl
      · cases hf'
    rw [whileLoop] at h
    split at h
    · cases h
    · rename_i st1 v cr h1
      simp only [Except.ok.injEq, Prod.mk.injEq] at h
      obtain ⟨rfl, _⟩ := h
      exact step1 _ _ _ _ h1
    · rename_i st1 h1
      split at h
      · cases h
      · rename_i st2 v cr h2
        simp only [Except.ok.injEq, Prod.mk.injEq] at h
        obtain ⟨rfl, _⟩ := h
        exact (step1 _ _ _ _ h2).trans (step1 _ _ _ _ h1)
      · rename_i st2 cr h2
        simp only [Except.ok.injEq, Prod.mk.injEq] at h
        obtain ⟨rfl, _⟩ := h
        have hun := (step1 _ _ _ _ h2).trans (step1 _ _ _ _ h1)
        obtain ⟨vc, hvc, hc⟩ := conditional_cases h1
        obtain ⟨vd, hvd, hd⟩ := conditional_cases h2
        rcases hc with ⟨_, k, _⟩ | ⟨_, k, _⟩ | ⟨f, _, k, _⟩ | ⟨hb0, _, _, s1, g1, rfl⟩ |
          ⟨f, _, _, _, _, _, _, _, k, _⟩
        · cases k
        · cases k
        · cases k
        · obtain ⟨e1, _⟩ := flat_env fuel field b hf _ _ _ g1
          have hsm : SmE st.env s1.env := by
            have := (exec_forgets fuel field b false _ _ _ hs rfl g1).1.1
            exact this
          have hb1 : getBool vd field = none := getBool_mono (B := s1.env) hsm c hvc hvd hb0
          rcases hd with ⟨k, _⟩ | ⟨k, _⟩ | ⟨f, k, _⟩ | ⟨_, _, _, s2, g2, rfl⟩ |
            ⟨f, _, _, _, _, _, _, _, k, _⟩
          · rw [hb1] at k; cases k
          · rw [hb1] at k; cases k
          · rw [hb1] at k; cases k
          · obtain ⟨e2, e3⟩ := flat_env fuel field b hf _ _ _ g2
            have henv : s2.env = s1.env := (flat_again fuel field b hf _ _ _ _ g1 g2 rfl rfl).1 hs (SmE.refl _)
            have hsig : s2.sigs = s1.sigs := by rw [e2]; rfl
            have g3 := e3 (enter (leave (leave st s1) s2)) henv hsig rfl
            have third : conditional field c (exec fuel field b) none (leave (leave st s1) s2) =
                .ok (leave (leave (leave st s1) s2)
                  { enter (leave (leave st s1) s2) with env := s2.env }, none, none) := by
              unfold conditional
              have hev : eval field (leave (leave st s1) s2).sigs (leave (leave st s1) s2).env c = .ok vd := by
                show eval field s2.sigs s2.env c = .ok vd
                rw [henv, hsig]; exact hvd
              rw [hev]
              simp only [hb1, g3]
            have : (markUnstable (conditional field c (exec fuel field b) none)
                (leave (leave st s1) s2)).unstable = (leave (leave st s1) s2).unstable := by
              unfold markUnstable
              rw [third]
              simp [leave, enter]
            rw [this]
            exact hun
          · cases k
        · cases k
    · rename_i st1 h1
      simp only [Except.ok.injEq, Prod.mk.injEq] at h
      obtain ⟨rfl, _⟩ := h
      exact step1 _ _ _ _ h1
    · rename_i st1 h1
      have h2 := whileLoop_stable hf hs n _ _ _ h
      have h3 := step1 _ _ _ _ h1
      exact h2.trans h3

theorem tame_stable (fuel : Nat) (field : Int) :
    ∀ (s : Stmt), s.Tame → ∀ (b : Bool), s.Scoped b → ∀ (st st' : St) (r : Option V),
      exec fuel field s st = .ok (st', r) → st'.unstable = st.unstable
  | .skip, _, _, _, st, st', r, h => by
    simp only [exec, Except.ok.injEq, Prod.mk.injEq] at h
    rw [← h.1]
  | .decl x, _, _, _, st, st', r, h => by
    simp only [exec] at h
    split at h
    · cases h
    · simp only [Except.ok.injEq, Prod.mk.injEq] at h
      rw [← h.1]
  | .assign x e, _, _, _, st, st', r, h => by
    simp only [exec] at h
    split at h
    · cases h
    · split at h
      · cases h
      · simp only [Except.ok.injEq, Prod.mk.injEq] at h
        rw [← h.1]
  | .sassign s e, _, _, _, st, st', r, h => by
    simp only [exec] at h
    split at h
    · cases h
    · split at h
      · cases h
      · rename_i st1 h1
        simp only [Except.ok.injEq, Prod.mk.injEq] at h
        obtain ⟨rfl, _⟩ := h
        obtain ⟨a, _, rfl⟩ := assignSignal_ok h1
        rfl
  | .cassign s e, _, _, _, st, st', r, h => by
    simp only [exec] at h
    split at h
    · cases h
    · split at h
      · cases h
      · rename_i st1 h1
        obtain ⟨a, _, rfl⟩ := assignSignal_ok h1
        split at h
        · cases h
        · split at h
          · cases h
          · split at h
            · cases h
            · rename_i st2 h2
              simp only [Except.ok.injEq, Prod.mk.injEq] at h
              obtain ⟨rfl, _⟩ := h
              obtain ⟨d, k, _, _, rfl⟩ := addEquality_ok h2
              rfl
  | .check l r', _, _, _, st, st', r, h => by
    simp only [exec] at h
    split at h
    · cases h
    · split at h
      · cases h
      · split at h
        · cases h
        · split at h
          · cases h
          · rename_i st2 h2
            simp only [Except.ok.injEq, Prod.mk.injEq] at h
            obtain ⟨rfl, _⟩ := h
            obtain ⟨d, k, _, _, rfl⟩ := addEquality_ok h2
            rfl
  | .seq x y, ht, b, hs, st, st', r, h => by
    simp only [exec] at h
    split at h
    · cases h
    · rename_i st1 v h1
      simp only [Except.ok.injEq, Prod.mk.injEq] at h
      obtain ⟨rfl, _⟩ := h
      exact tame_stable fuel field x ht.1 b hs.1 _ _ _ h1
    · rename_i st1 h1
      exact (tame_stable fuel field y ht.2 b hs.2 _ _ _ h).trans
        (tame_stable fuel field x ht.1 b hs.1 _ _ _ h1)
  | .ifte c t none, ht, b, hs, st, st', r, h => by
    simp only [exec] at h
    split at h
    · cases h
    · rename_i st1 r1 cr h1
      simp only [Except.ok.injEq, Prod.mk.injEq] at h
      obtain ⟨rfl, _⟩ := h
      obtain ⟨vc, _, hc⟩ := conditional_cases h1
      rcases hc with ⟨_, _, h⟩ | ⟨_, _, _, rfl, _⟩ | ⟨f, _, _, hf', h⟩ | ⟨_, _, _, s1, h, rfl⟩ |
        ⟨f, _, _, _, _, _, _, _, hf', _⟩
      · exact tame_stable fuel field t ht false hs _ _ _ h
      · rfl
      · cases hf'
      · have := tame_stable fuel field t ht false hs _ _ _ h
        exact this
      · cases hf'
  | .ifte c t (some e), ht, b, hs, st, st', r, h => by
    simp only [exec] at h
    split at h
    · cases h
    · rename_i st1 r1 cr h1
      simp only [Except.ok.injEq, Prod.mk.injEq] at h
      obtain ⟨rfl, _⟩ := h
      obtain ⟨vc, _, hc⟩ := conditional_cases h1
      rcases hc with ⟨_, _, h⟩ | ⟨_, _, hn, _⟩ | ⟨f, _, _, hf', h⟩ | ⟨_, _, hn, _⟩ |
        ⟨f, s1, r1, last, s2, r2, _, _, hf', g1, _, g2, rfl, _⟩
      · exact tame_stable fuel field t ht.1 false hs.1 _ _ _ h
      · cases hn
      · injection hf' with hf'
        subst hf'
        exact tame_stable fuel field e ht.2 false hs.2 _ _ _ h
      · cases hn
      · injection hf' with hf'
        subst hf'
        have h1 := tame_stable fuel field t ht.1 false hs.1 _ _ _ g1
        have h2 := tame_stable fuel field e ht.2 false hs.2 _ _ _ g2
        exact h2.trans h1
  | .while c b, ht, _, hs, st, st', r, h => by
    simp only [exec] at h
    have := whileLoop_stable ht hs _ _ _ _ h
    exact this
  | .block b, ht, _, hs, st, st', r, h => by
    simp only [exec] at h
    split at h
    · cases h
    · rename_i st1 r1 h1
      simp only [Except.ok.injEq, Prod.mk.injEq] at h
      obtain ⟨rfl, _⟩ := h
      have := tame_stable fuel field b ht true hs _ _ _ h1
      exact this
  | .ret e, _, _, _, st, st', r, h => by
    simp only [exec] at h
    split at h
    · cases h
    · simp only [Except.ok.injEq, Prod.mk.injEq] at h
      rw [← h.1]

/-! ### Pending conditions -/

theorem loopFree_conditional {field : Int} {c : Expr}
    {t : St → Ex (St × Option V)} {e : Option (St → Ex (St × Option V))}
    (ht : ∀ st st' r, t st = .ok (st', r) →
      st'.conds = st.conds ∧ st'.loopInUnknown = st.loopInUnknown)
    (he : ∀ f, e = some f → ∀ st st' r, f st = .ok (st', r) →
      st'.conds = st.conds ∧ st'.loopInUnknown = st.loopInUnknown)
    {st st' : St} {r : Option V} {cr : Option Bool}
    (h : conditional field c t e st = .ok (st', r, cr)) :
    st'.conds = st.conds ∧ st'.loopInUnknown = st.loopInUnknown := by
  obtain ⟨vc, _, hc⟩ := conditional_cases h
  clear h
  rcases hc with ⟨_, _, h⟩ | ⟨_, _, _, rfl, _⟩ | ⟨f, _, _, hf, h⟩ | ⟨_, _, _, s1, h, rfl⟩ |
    ⟨f, s1, r1, last, s2, r2, _, _, hf, g1, _, g2, rfl, _⟩
  · exact ht _ _ _ h
  · exact ⟨rfl, rfl⟩
  · exact he f hf _ _ _ h
  · obtain ⟨h1, h2⟩ := ht _ _ _ h
    refine ⟨?_, h2⟩
    show s1.conds.dropLast = _
    rw [h1, dropLast_enter]
  · obtain ⟨h1, h2⟩ := ht _ _ _ g1
    obtain ⟨h3, h4⟩ := he f hf _ _ _ g2
    refine ⟨?_, h4.trans h2⟩
    show s2.conds.dropLast = _
    rw [h3]
    simp only [flip, List.dropLast_concat, h1, dropLast_enter]

/-- Statements without loops restore the pending conditions. -/
theorem loopFree_conds (fuel : Nat) (field : Int) :
    ∀ (s : Stmt), s.LoopFree → ∀ (st st' : St) (r : Option V),
      exec fuel field s st = .ok (st', r) →
      st'.conds = st.conds ∧ st'.loopInUnknown = st.loopInUnknown
  | .skip, _, st, st', r, h => by
    simp only [exec, Except.ok.injEq, Prod.mk.injEq] at h
    rw [← h.1]; exact ⟨rfl, rfl⟩
  | .decl x, _, st, st', r, h => by
    simp only [exec] at h
    split at h
    · cases h
    · simp only [Except.ok.injEq, Prod.mk.injEq] at h
      rw [← h.1]; exact ⟨rfl, rfl⟩
  | .assign x e, _, st, st', r, h => by
    simp only [exec] at h
    split at h
    · cases h
    · split at h
      · cases h
      · simp only [Except.ok.injEq, Prod.mk.injEq] at h
        rw [← h.1]; exact ⟨rfl, rfl⟩
  | .sassign s e, _, st, st', r, h => by
    simp only [exec] at h
    split at h
    · cases h
    · split at h
      · cases h
      · rename_i st1 h1
        simp only [Except.ok.injEq, Prod.mk.injEq] at h
        obtain ⟨rfl, _⟩ := h
        obtain ⟨a, _, rfl⟩ := assignSignal_ok h1
        exact ⟨rfl, rfl⟩
  | .cassign s e, _, st, st', r, h => by
    simp only [exec] at h
    split at h
    · cases h
    · split at h
      · cases h
      · rename_i st1 h1
        obtain ⟨a, _, rfl⟩ := assignSignal_ok h1
        split at h
        · cases h
        · split at h
          · cases h
          · split at h
            · cases h
            · rename_i st2 h2
              simp only [Except.ok.injEq, Prod.mk.injEq] at h
              obtain ⟨rfl, _⟩ := h
              obtain ⟨d, k, _, _, rfl⟩ := addEquality_ok h2
              exact ⟨rfl, rfl⟩
  | .check l r', _, st, st', r, h => by
    simp only [exec] at h
    split at h
    · cases h
    · split at h
      · cases h
      · split at h
        · cases h
        · split at h
          · cases h
          · rename_i st2 h2
            simp only [Except.ok.injEq, Prod.mk.injEq] at h
            obtain ⟨rfl, _⟩ := h
            obtain ⟨d, k, _, _, rfl⟩ := addEquality_ok h2
            exact ⟨rfl, rfl⟩
  | .seq x y, ht, st, st', r, h => by
    simp only [exec] at h
    split at h
    · cases h
    · rename_i st1 v h1
      simp only [Except.ok.injEq, Prod.mk.injEq] at h
      obtain ⟨rfl, _⟩ := h
      exact loopFree_conds fuel field x ht.1 _ _ _ h1
    · rename_i st1 h1
      obtain ⟨a1, a2⟩ := loopFree_conds fuel field x ht.1 _ _ _ h1
      obtain ⟨b1, b2⟩ := loopFree_conds fuel field y ht.2 _ _ _ h
      exact ⟨b1.trans a1, b2.trans a2⟩
  | .ifte c t none, ht, st, st', r, h => by
    simp only [exec] at h
    split at h
    · cases h
    · rename_i st1 r1 cr h1
      simp only [Except.ok.injEq, Prod.mk.injEq] at h
      obtain ⟨rfl, _⟩ := h
      exact loopFree_conditional (loopFree_conds fuel field t ht) (by intro f hf; cases hf) h1
  | .ifte c t (some e), ht, st, st', r, h => by
    simp only [exec] at h
    split at h
    · cases h
    · rename_i st1 r1 cr h1
      simp only [Except.ok.injEq, Prod.mk.injEq] at h
      obtain ⟨rfl, _⟩ := h
      exact loopFree_conditional (loopFree_conds fuel field t ht.1)
        (by intro f hf; injection hf with hf; subst hf; exact loopFree_conds fuel field e ht.2) h1
  | .block b, ht, st, st', r, h => by
    simp only [exec] at h
    split at h
    · cases h
    · rename_i st1 r1 h1
      simp only [Except.ok.injEq, Prod.mk.injEq] at h
      obtain ⟨rfl, _⟩ := h
      have := loopFree_conds fuel field b ht _ _ _ h1
      exact this
  | .ret e, _, st, st', r, h => by
    simp only [exec] at h
    split at h
    · cases h
    · simp only [Except.ok.injEq, Prod.mk.injEq] at h
      rw [← h.1]; exact ⟨rfl, rfl⟩

/-- The state after `n` iterations with known condition, none of which returned. -/
inductive Iterates (step : St → Ex (St × Option V × Option Bool)) : Nat → St → St → Prop where
  | zero (st : St) : Iterates step 0 st st
  | succ {n : Nat} {st st1 st2 : St} (h : step st = .ok (st1, none, some true))
      (rest : Iterates step n (endIteration st1) st2) : Iterates step (n + 1) st st2

/-- The last `n` entries removed. -/
def dropEnd (n : Nat) (cs : Conds) : Conds := cs.take (cs.length - n)

theorem dropEnd_dropLast (n : Nat) (cs : Conds) : dropEnd n cs.dropLast = dropEnd (n + 1) cs := by
  unfold dropEnd
  rw [List.dropLast_eq_take, List.take_take, List.length_take]
  congr 1
  omega

theorem whileLoop_conds {step : St → Ex (St × Option V × Option Bool)}
    (hs : ∀ st st' r cr, step st = .ok (st', r, cr) → st'.conds = st.conds) :
    ∀ (fuel : Nat) (st st' : St), whileLoop step fuel st = .ok (st', none) →
      ∃ n st1, Iterates step n st st1 ∧ (∃ st2 cr, step st1 = .ok (st2, none, cr) ∧ cr ≠ some true) ∧
        st'.conds = dropEnd n st.conds
  | 0, st, st', h => by simp [whileLoop] at h
  | fuel + 1, st, st', h => by
    rw [whileLoop] at h
    split at h
    · cases h
    · simp at h
    · rename_i st1 h1
      split at h
      · cases h
      · simp at h
      · rename_i st2 cr h2
        simp only [Except.ok.injEq, Prod.mk.injEq] at h
        obtain ⟨rfl, _⟩ := h
        refine ⟨0, st, .zero st, ⟨st1, none, h1, by simp⟩, ?_⟩
        rw [(markUnstable_fields step st2).2.2.1, hs _ _ _ _ h2, hs _ _ _ _ h1]
        simp [dropEnd]
    · rename_i st1 h1
      simp only [Except.ok.injEq, Prod.mk.injEq] at h
      obtain ⟨rfl, _⟩ := h
      exact ⟨0, st, .zero st, ⟨st1, some false, h1, by simp⟩, by rw [hs _ _ _ _ h1]; simp [dropEnd]⟩
    · rename_i st1 h1
      obtain ⟨n, s, g1, g2, g3⟩ := whileLoop_conds hs fuel _ _ h
      refine ⟨n + 1, s, .succ h1 g1, g2, ?_⟩
      rw [g3]
      show dropEnd n st1.conds.dropLast = _
      rw [hs _ _ _ _ h1, dropEnd_dropLast]

end Verif.Exec
