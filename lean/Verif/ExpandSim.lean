import Verif.ExpandInfer

/-!
# The expansion of constants keeps what a body does
-/

set_option linter.unusedSimpArgs false
set_option linter.unusedVariables false
set_option linter.unusedSectionVars false

namespace Verif.Expand

variable {V : Type}

/-- Operations and calls leave no trace. -/
def Sem.Silent (S : Sem V) : Prop := ∀ k vs v t, S.node k vs = some (v, t) → t = []

mutual
theorem eval_silent (S : Sem V) (hS : S.Silent) (σ : Env V) :
    ∀ e v t, eval S σ e = some (v, t) → t = []
  | .num n, v, t, h => by
      simp only [eval, pure_some] at h; exact h.2
  | .var x acc idx, v, t, h => by
      simp only [eval, bind_some, of_some] at h
      obtain ⟨is, t1, t2, h1, ⟨w, t3, t4, ⟨_, rfl⟩, ⟨_, rfl⟩, rfl⟩, rfl⟩ := h
      rw [evalAll_silent S hS σ idx is t1 h1]; rfl
  | .node k es, v, t, h => by
      simp only [eval, bind_some] at h
      obtain ⟨vs, t1, t2, h1, h2, rfl⟩ := h
      rw [evalAll_silent S hS σ es vs t1 h1, hS _ _ _ _ h2]; rfl
  | .switch c a b, v, t, h => by
      simp only [eval, bind_some, of_some] at h
      obtain ⟨w, t1, t2, h1, ⟨q, t3, t4, ⟨_, rfl⟩, h2, rfl⟩, rfl⟩ := h
      rw [eval_silent S hS σ c w t1 h1]
      cases q with
      | true => simp at h2; rw [eval_silent S hS σ a v _ h2]; rfl
      | false => simp at h2; rw [eval_silent S hS σ b v _ h2]; rfl
  | .sugar, v, t, h => by simp [eval] at h
theorem evalAll_silent (S : Sem V) (hS : S.Silent) (σ : Env V) :
    ∀ es vs t, evalAll S σ es = some (vs, t) → t = []
  | [], vs, t, h => by simp only [evalAll, pure_some] at h; exact h.2
  | e :: es, vs, t, h => by
      simp only [evalAll, bind_some, pure_some] at h
      obtain ⟨w, t1, t2, h1, ⟨ws, t3, t4, h2, ⟨rfl, rfl⟩, rfl⟩, rfl⟩ := h
      rw [eval_silent S hS σ e w t1 h1, evalAll_silent S hS σ es ws t3 h2]; rfl
end

mutual
theorem eval_frame (S : Sem V) (σ σ' : Env V) :
    ∀ e, (∀ y ∈ reads e, σ'.get y = σ.get y) → eval S σ' e = eval S σ e
  | .num n, _ => by simp only [eval]
  | .var x acc idx, h => by
      simp only [eval]
      rw [evalAll_frame S σ σ' idx (fun y hy => h y (by simp [reads, hy])),
        h x (by simp [reads])]
  | .node k es, h => by
      simp only [eval]
      rw [evalAll_frame S σ σ' es (fun y hy => h y (by simp [reads, hy]))]
  | .switch c a b, h => by
      simp only [eval]
      rw [eval_frame S σ σ' c (fun y hy => h y (by simp [reads, hy])),
        eval_frame S σ σ' a (fun y hy => h y (by simp [reads, hy])),
        eval_frame S σ σ' b (fun y hy => h y (by simp [reads, hy]))]
  | .sugar, _ => by simp only [eval]
theorem evalAll_frame (S : Sem V) (σ σ' : Env V) :
    ∀ es, (∀ y ∈ readsAll es, σ'.get y = σ.get y) → evalAll S σ' es = evalAll S σ es
  | [], _ => by simp only [evalAll]
  | e :: es, h => by
      simp only [evalAll]
      rw [eval_frame S σ σ' e (fun y hy => h y (by simp [readsAll, hy])),
        evalAll_frame S σ σ' es (fun y hy => h y (by simp [readsAll, hy]))]
end

theorem eval_var (S : Sem V) (σ : Env V) (x : String) :
    eval S σ (.var x [] []) = W.of (σ.get x) := by
  simp only [eval, evalAll, pure_bind]
  cases σ.get x with
  | none => rfl
  | some v => simp [W.of, W.bind, S.read_nil]

/-- What is held for a name is its value, and does not change as long as the names of `F` keep
theirs. -/
def Inv (S : Sem V) (H : Env Ex) (F : String → Prop) (σ : Env V) : Prop :=
  ∀ x e, H.get x = some e → ∃ v, σ.get x = some v ∧ eval S σ e = some (v, []) ∧
    (e = .var x [] [] ∨ (F x ∧ ∀ y ∈ reads e, F y))

theorem Inv.frame {S : Sem V} {H : Env Ex} {F : String → Prop} {σ σ' : Env V} (h : Inv S H F σ)
    (hF : ∀ y, F y → σ'.get y = σ.get y) (hk : ∀ y ∈ σ.keys.flatten, y ∈ σ'.keys.flatten) :
    Inv S H F σ' := by
  intro x e hx
  obtain ⟨v, h1, h2, h3⟩ := h x e hx
  rcases h3 with rfl | ⟨h3, h4⟩
  · obtain ⟨w, hw⟩ := (get_some_iff σ' x).2 (hk x ((get_some_iff σ x).1 ⟨v, h1⟩))
    refine ⟨w, hw, ?_, Or.inl rfl⟩
    rw [eval_var, hw]; rfl
  · refine ⟨v, by rw [hF x h3, h1], ?_, Or.inr ⟨h3, h4⟩⟩
    rw [eval_frame S σ σ' e (fun y hy => hF y (h4 y hy)), h2]

theorem Inv.mono {S : Sem V} {H : Env Ex} {F G : String → Prop} {σ : Env V} (h : Inv S H F σ)
    (hF : ∀ y, F y → G y) : Inv S H G σ := by
  intro x e hx
  obtain ⟨v, h1, h2, h3⟩ := h x e hx
  exact ⟨v, h1, h2, h3.imp id fun h4 => ⟨hF x h4.1, fun y hy => hF y (h4.2 y hy)⟩⟩

mutual
theorem eval_expand (S : Sem V) (H : Env Ex) (F : String → Prop) (σ : Env V)
    (h : Inv S H F σ) : ∀ e, eval S σ (expandEx H e) = eval S σ e
  | .num n => by simp only [expandEx]
  | .var x acc idx => by
      cases acc with
      | nil =>
        cases idx with
        | nil =>
          simp only [expandEx]
          cases hx : H.get x with
          | none => rfl
          | some e =>
            obtain ⟨v, h1, h2, _⟩ := h x e hx
            show eval S σ e = _
            rw [h2, eval_var, h1]; rfl
        | cons i idx =>
          simp only [expandEx, eval]
          rw [evalAll_expand S H F σ h (i :: idx)]
      | cons a acc =>
        simp only [expandEx, eval]
        rw [evalAll_expand S H F σ h idx]
  | .node k es => by
      simp only [expandEx, eval]
      rw [evalAll_expand S H F σ h es]
  | .switch c a b => by
      simp only [expandEx, eval]
      rw [eval_expand S H F σ h c, eval_expand S H F σ h a, eval_expand S H F σ h b]
  | .sugar => by simp only [expandEx]
theorem evalAll_expand (S : Sem V) (H : Env Ex) (F : String → Prop) (σ : Env V)
    (h : Inv S H F σ) : ∀ es, evalAll S σ (expandExs H es) = evalAll S σ es
  | [] => by simp only [expandExs]
  | e :: es => by
      simp only [expandExs, evalAll]
      rw [eval_expand S H F σ h e, evalAll_expand S H F σ h es]
end

mutual
theorem reads_expand (H : Env Ex) (y : String) : ∀ e, y ∈ reads (expandEx H e) →
    y ∈ reads e ∨ ∃ x e0, H.get x = some e0 ∧ x ∈ reads e ∧ y ∈ reads e0
  | .num n, h => by simp [expandEx, reads] at h
  | .var x acc idx, h => by
      have rest : y ∈ reads (.var x acc (expandExs H idx)) →
          y ∈ reads (.var x acc idx) ∨
            ∃ z e0, H.get z = some e0 ∧ z ∈ reads (.var x acc idx) ∧ y ∈ reads e0 := by
        intro h
        simp only [reads, List.mem_cons] at h ⊢
        rcases h with h | h
        · exact Or.inl (Or.inl h)
        · rcases readsAll_expand H y idx h with h' | ⟨z, e0, h1, h2, h3⟩
          · exact Or.inl (Or.inr h')
          · exact Or.inr ⟨z, e0, h1, Or.inr h2, h3⟩
      cases acc with
      | nil =>
        cases idx with
        | nil =>
          simp only [expandEx] at h
          cases hx : H.get x with
          | none => rw [hx] at h; exact Or.inl h
          | some e =>
            rw [hx] at h
            exact Or.inr ⟨x, e, hx, by simp [reads], h⟩
        | cons i idx => exact rest (by simpa only [expandEx] using h)
      | cons a acc => exact rest (by simpa only [expandEx] using h)
  | .node k es, h => by
      simp only [expandEx, reads] at h ⊢
      exact readsAll_expand H y es h
  | .switch c a b, h => by
      simp only [expandEx, reads, List.mem_append] at h ⊢
      rcases h with h | h | h
      · rcases reads_expand H y c h with h' | ⟨z, e0, h1, h2, h3⟩
        · exact Or.inl (Or.inl h')
        · exact Or.inr ⟨z, e0, h1, Or.inl h2, h3⟩
      · rcases reads_expand H y a h with h' | ⟨z, e0, h1, h2, h3⟩
        · exact Or.inl (Or.inr (Or.inl h'))
        · exact Or.inr ⟨z, e0, h1, Or.inr (Or.inl h2), h3⟩
      · rcases reads_expand H y b h with h' | ⟨z, e0, h1, h2, h3⟩
        · exact Or.inl (Or.inr (Or.inr h'))
        · exact Or.inr ⟨z, e0, h1, Or.inr (Or.inr h2), h3⟩
  | .sugar, h => by simp [expandEx, reads] at h
theorem readsAll_expand (H : Env Ex) (y : String) : ∀ es, y ∈ readsAll (expandExs H es) →
    y ∈ readsAll es ∨ ∃ x e0, H.get x = some e0 ∧ x ∈ readsAll es ∧ y ∈ reads e0
  | [], h => by simp [expandExs, readsAll] at h
  | e :: es, h => by
      simp only [expandExs, readsAll, List.mem_append] at h ⊢
      rcases h with h | h
      · rcases reads_expand H y e h with h' | ⟨z, e0, h1, h2, h3⟩
        · exact Or.inl (Or.inl h')
        · exact Or.inr ⟨z, e0, h1, Or.inl h2, h3⟩
      · rcases readsAll_expand H y es h with h' | ⟨z, e0, h1, h2, h3⟩
        · exact Or.inl (Or.inr h')
        · exact Or.inr ⟨z, e0, h1, Or.inr h2, h3⟩
end

theorem expandExs_map (H : Env Ex) (es : List Ex) : expandExs H es = es.map (expandEx H) := by
  induction es with
  | nil => rfl
  | cons e es ih => simp [expandExs, ih]

theorem assign_some (S : Sem V) (σ : Env V) (x : String) (acc : List (Option String))
    (is : List V) (v : V) (σ1 : Env V) (t : List (Tr V)) :
    assign S σ x acc is v = some (σ1, t) ↔
      ∃ old w, σ.get x = some old ∧ S.write old acc is v = some w ∧ σ1 = σ.set x w ∧ t = [] := by
  unfold assign
  simp only [bind_some, of_some, pure_some]
  constructor
  · rintro ⟨old, t1, t2, ⟨h1, rfl⟩, ⟨w, t3, t4, ⟨h2, rfl⟩, ⟨h3, rfl⟩, rfl⟩, rfl⟩
    exact ⟨old, w, h1, h2, h3, rfl⟩
  · rintro ⟨old, w, h1, h2, h3, rfl⟩
    exact ⟨old, [], [], ⟨h1, rfl⟩, ⟨w, [], [], ⟨h2, rfl⟩, ⟨h3, rfl⟩, rfl⟩, rfl⟩

theorem runSubs_sim (S : Sem V) (H : Env Ex) (F : String → Prop) :
    ∀ (ps : List (String × Ex)) (σ : Env V), (∀ p ∈ ps, ¬ F p.1) → Inv S H F σ →
    runSubs S (ps.map fun p => (p.1, expandEx H p.2)) σ = runSubs S ps σ ∧
    ∀ σ1 t, runSubs S ps σ = some (σ1, t) → σ1.keys = σ.keys ∧
      ∀ y, (∀ p ∈ ps, p.1 ≠ y) → σ1.get y = σ.get y := by
  intro ps
  induction ps with
  | nil =>
    intro σ _ _
    refine ⟨rfl, ?_⟩
    intro σ1 t h
    simp only [runSubs, pure_some] at h
    obtain ⟨rfl, _⟩ := h
    exact ⟨rfl, fun _ _ => rfl⟩
  | cons p ps ih =>
    intro σ hp hI
    have hstep : ∀ v σ1 t, assign S σ p.1 [] [] v = some (σ1, t) →
        σ1.keys = σ.keys ∧ (∀ y, y ≠ p.1 → σ1.get y = σ.get y) ∧ Inv S H F σ1 := by
      intro v σ1 t h
      obtain ⟨old, w, h1, h2, rfl, rfl⟩ := (assign_some _ _ _ _ _ _ _ _).1 h
      refine ⟨keys_set _ _ _, fun y hy => get_set_ne _ _ hy, ?_⟩
      refine hI.frame (fun y hy => get_set_ne _ _ ?_) (fun y hy => by rw [keys_set]; exact hy)
      rintro rfl
      exact hp p (by simp) hy
    refine ⟨?_, ?_⟩
    · simp only [List.map_cons, runSubs]
      rw [eval_expand S H F σ hI p.2]
      apply bind_congr
      intro v t _
      apply bind_congr
      intro σ1 t1 h1
      exact (ih σ1 (fun q hq => hp q (by simp [hq])) (hstep v σ1 t1 h1).2.2).1
    · intro σ2 t h
      simp only [runSubs, bind_some] at h
      obtain ⟨v, t1, t2, h1, ⟨σ1, t3, t4, h2, h3, rfl⟩, rfl⟩ := h
      obtain ⟨k1, k2, k3⟩ := hstep v σ1 t3 h2
      obtain ⟨j1, j2⟩ := (ih σ1 (fun q hq => hp q (by simp [hq])) k3).2 _ _ h3
      refine ⟨by rw [j1, k1], ?_⟩
      intro y hy
      rw [j2 y (fun q hq => hy q (by simp [hq])), k2 y (fun h0 => hy p (by simp) h0.symm)]

theorem runSyms_sim (S : Sem V) (hS : S.Silent) (H : Env Ex) (F : String → Prop) (b : Bool) :
    ∀ (syms : List Sym) (arr vis : List String) (σ : Env V), PlainSyms b arr vis syms →
    (∀ x, x ∈ vis ↔ x ∈ σ.keys.flatten) → σ ≠ [] → (∀ y, F y → y ∈ vis) → Inv S H F σ →
    runSyms S (syms.map (expandSym H)) σ = runSyms S syms σ ∧
    ∀ σ1 t, runSyms S syms σ = some (σ1, t) →
      σ1.keys = addKeys (syms.map Sym.name).reverse σ.keys ∧
      (∀ y ∈ vis, σ1.get y = σ.get y) ∧
      ∀ q ∈ syms, q.dims = [] → ∀ e, q.subs = [e] →
        ∃ v, σ1.get q.name = some v ∧ eval S σ1 e = some (v, []) := by
  intro syms
  induction syms with
  | nil =>
    intro arr vis σ _ _ _ _ _
    refine ⟨rfl, ?_⟩
    intro σ1 t h
    simp only [runSyms, pure_some] at h
    obtain ⟨rfl, _⟩ := h
    exact ⟨by simp [addKeys_nil], fun _ _ => rfl, by simp⟩
  | cons s ss ih =>
    intro arr vis σ hp hv hσ hF hI
    simp only [PlainSyms] at hp
    obtain ⟨hp1, hp2, hp3, hp4, hp5⟩ := hp
    -- the memory with the new symbol
    have hadd : ∀ w : V, (σ.add s.name w) ≠ [] ∧
        (∀ x, x ∈ s.name :: vis ↔ x ∈ (σ.add s.name w).keys.flatten) ∧
        (∀ y ∈ vis, (σ.add s.name w).get y = σ.get y) ∧ Inv S H F (σ.add s.name w) := by
      intro w
      have h1 : ∀ y ∈ vis, (σ.add s.name w).get y = σ.get y := by
        intro y hy
        rw [get_add _ hσ, if_neg]
        rintro rfl
        exact hp1 hy
      refine ⟨?_, ?_, h1, ?_⟩
      · cases σ with
        | nil => exact absurd rfl hσ
        | cons b σ => simp [Env.add]
      · intro x
        rw [keys_add, mem_addKeys _ _ ((keys_ne σ).2 hσ), ← hv x]
        simp
      · refine hI.frame (fun y hy => h1 y (hF y hy)) ?_
        intro y hy
        rw [keys_add, mem_addKeys _ _ ((keys_ne σ).2 hσ)]
        exact Or.inr hy
    have hnF : ∀ p ∈ s.subs.map (fun e => (s.name, e)), ¬ F p.1 := by
      intro p hpm
      obtain ⟨e, _, rfl⟩ := List.mem_map.1 hpm
      exact fun h0 => hp1 (hF _ h0)
    have hsubs : ∀ w : V, _ := fun w => runSubs_sim S H F (s.subs.map fun e => (s.name, e))
      (σ.add s.name w) hnF (hadd w).2.2.2
    have hafter : ∀ (w : V) σ1 t, runSubs S (s.subs.map fun e => (s.name, e))
        (σ.add s.name w) = some (σ1, t) → σ1.keys = (σ.add s.name w).keys ∧ σ1 ≠ [] ∧
        (∀ x, x ∈ s.name :: vis ↔ x ∈ σ1.keys.flatten) ∧ (∀ y ∈ vis, σ1.get y = σ.get y) ∧
        Inv S H F σ1 := by
      intro w σ1 t h
      obtain ⟨k1, k2⟩ := (hsubs w).2 σ1 t h
      have hg : ∀ y ∈ vis, σ1.get y = σ.get y := by
        intro y hy
        rw [k2 y, (hadd w).2.2.1 y hy]
        intro p hpm
        obtain ⟨e, _, rfl⟩ := List.mem_map.1 hpm
        rintro rfl
        exact hp1 hy
      refine ⟨k1, (keys_ne σ1).1 (by rw [k1]; exact (keys_ne _).2 (hadd w).1), ?_, hg, ?_⟩
      · intro x; rw [k1]; exact (hadd w).2.1 x
      · refine hI.frame (fun y hy => hg y (hF y hy)) ?_
        intro y hy
        rw [k1]
        exact ((hadd w).2.1 y).1 (List.mem_cons_of_mem _ ((hv y).2 hy))
    refine ⟨?_, ?_⟩
    · simp only [List.map_cons, runSyms]
      have h1 : (expandSym H s).dims = expandExs H s.dims := rfl
      have h2 : (expandSym H s).name = s.name := rfl
      have h3 : (expandSym H s).isVar = s.isVar := rfl
      have h4 : ((expandSym H s).subs.map fun e => (s.name, e)) =
          (s.subs.map fun e => (s.name, e)).map fun p => (p.1, expandEx H p.2) := by
        show ((expandExs H s.subs).map fun e => (s.name, e)) = _
        rw [expandExs_map, List.map_map, List.map_map]
        rfl
      rw [h1, h2, h3, h4, evalAll_expand S H F σ hI]
      apply bind_congr
      intro ds t _
      apply bind_congr
      intro _ t' _
      apply bind_congr
      intro w t'' _
      rw [(hsubs w).1]
      apply bind_congr
      intro σ1 t1 h5
      obtain ⟨a1, a2, a3, a4, a5⟩ := hafter w σ1 t1 h5
      exact (ih _ _ σ1 hp5 a3 a2 (fun y hy => List.mem_cons_of_mem _ (hF y hy)) a5).1
    · intro σ2 t h
      simp only [runSyms, bind_some, of_some] at h
      obtain ⟨ds, t1, t2, h1, ⟨_, t3, t4, h2, ⟨w, t5, t6, ⟨h3, rfl⟩,
        ⟨σ1, t7, t8, h4, h5, rfl⟩, rfl⟩, rfl⟩, rfl⟩ := h
      obtain ⟨a1, a2, a3, a4, a5⟩ := hafter w σ1 t7 h4
      obtain ⟨b1, b2, b3⟩ := (ih _ _ σ1 hp5 a3 a2
        (fun y hy => List.mem_cons_of_mem _ (hF y hy)) a5).2 σ2 t8 h5
      refine ⟨?_, ?_, ?_⟩
      · rw [b1, a1, keys_add, addKeys_append, List.map_cons, List.reverse_cons]
      · intro y hy
        rw [b2 y (List.mem_cons_of_mem _ hy), a4 y hy]
      · intro q hq hqd e hqe
        rcases List.mem_cons.1 hq with rfl | hq
        · rw [hqd] at h1
          simp only [evalAll, pure_some] at h1
          obtain ⟨rfl, rfl⟩ := h1
          rw [hqe] at h4
          simp only [List.map_cons, List.map_nil, runSubs, bind_some, pure_some] at h4
          obtain ⟨v, u1, u2, g1, ⟨σa, u3, u4, g2, ⟨rfl, rfl⟩, rfl⟩, rfl⟩ := h4
          obtain ⟨old, w', g3, g4, rfl, rfl⟩ := (assign_some _ _ _ _ _ _ _ _).1 g2
          rw [get_add _ hσ, if_pos rfl] at g3
          simp only [Option.some.injEq] at g3
          subst g3
          have := S.write_scalar _ _ _ _ h3 g4
          subst this
          have hu := eval_silent S hS _ _ _ _ g1
          subst hu
          refine ⟨w', ?_, ?_⟩
          · rw [b2 _ (by simp)]
            refine get_set_eq _ _ _ ?_
            rw [keys_add, mem_addKeys _ _ ((keys_ne σ).2 hσ)]
            exact Or.inl (by simp)
          · rw [← g1]
            apply eval_frame
            intro y hy
            have hyv : y ∈ vis := hp2 y (by rw [hqe]; simp [readsAll, hy])
            rw [b2 y (List.mem_cons_of_mem _ hyv), a4 y hyv, (hadd w).2.2.1 y hyv]
        · exact b3 q hq hqd e hqe

theorem get_holdSyms : ∀ (syms : List Sym) (H : Env Ex) (x : String) (e : Ex), H ≠ [] →
    (holdSyms H syms).get x = some e →
    (∃ q ∈ syms, q.const = true ∧ q.name = x ∧ e ∈ q.subs) ∨ H.get x = some e := by
  have inner : ∀ (es : List Ex) (H : Env Ex) (n x : String) (e : Ex), H ≠ [] →
      (es.foldl (fun H e => H.add n e) H) ≠ [] ∧
      ((es.foldl (fun H e => H.add n e) H).get x = some e →
        (n = x ∧ e ∈ es) ∨ H.get x = some e) := by
    intro es
    induction es with
    | nil => intro H n x e hH; exact ⟨hH, fun h => Or.inr h⟩
    | cons a es ih =>
      intro H n x e hH
      have hH' : H.add n a ≠ [] := by
        cases H with
        | nil => exact absurd rfl hH
        | cons b H => simp [Env.add]
      obtain ⟨k1, k2⟩ := ih (H.add n a) n x e hH'
      refine ⟨k1, fun h => ?_⟩
      rcases k2 h with ⟨h1, h2⟩ | h1
      · exact Or.inl ⟨h1, by simp [h2]⟩
      · rw [get_add _ hH] at h1
        by_cases hx : x = n
        · rw [if_pos hx] at h1
          exact Or.inl ⟨hx.symm, by simp [Option.some.inj h1]⟩
        · rw [if_neg hx] at h1
          exact Or.inr h1
  intro syms
  induction syms with
  | nil => intro H x e _ h; exact Or.inr h
  | cons s ss ih =>
    intro H x e hH h
    have hunf : holdSyms H (s :: ss) = holdSyms
      (if s.const then s.subs.foldl (fun H e => H.add s.name e) H else H) ss := rfl
    rw [hunf] at h
    cases hc : s.const with
    | false =>
      rw [hc] at h
      simp only [Bool.false_eq_true, if_false] at h
      rcases ih H x e hH h with ⟨q, hq, hr⟩ | h'
      · exact Or.inl ⟨q, by simp [hq], hr⟩
      · exact Or.inr h'
    | true =>
      rw [hc] at h
      simp only [if_true] at h
      obtain ⟨k1, k2⟩ := inner s.subs H s.name x e hH
      rcases ih _ x e k1 h with ⟨q, hq, hr⟩ | h'
      · exact Or.inl ⟨q, by simp [hq], hr⟩
      · rcases k2 h' with ⟨h1, h2⟩ | h1
        · exact Or.inl ⟨s, by simp, hc, h1, h2⟩
        · exact Or.inr h1

theorem plainSyms_mem (b : Bool) : ∀ (syms : List Sym) (arr vis : List String),
    PlainSyms b arr vis syms → ∀ q ∈ syms, q.dims = [] →
      q.subs.length ≤ 1 ∧ (b = true → q.subs = []) := by
  intro syms
  induction syms with
  | nil => intro _ _ _ q hq; simp at hq
  | cons s ss ih =>
    intro arr vis h q hq
    simp only [PlainSyms] at h
    rcases List.mem_cons.1 hq with rfl | hq
    · exact h.2.2.2.1
    · exact ih _ _ h.2.2.2.2 q hq

theorem init_sim (S : Sem V) (hS : S.Silent) (n : Nat) (H : Env Ex) (F : String → Prop)
    (arr vis : List String) (syms : List Sym) (tail : List (String × Ex)) (σ : Env V)
    (hp : Plain arr vis (.init syms tail)) (hv : ∀ x, x ∈ vis ↔ x ∈ σ.keys.flatten) (hσ : σ ≠ [])
    (hH : H ≠ []) (hF : ∀ y, F y → y ∈ vis) (hok : Ok F (.init syms tail)) (hI : Inv S H F σ) :
    run S n (expand (.init syms tail) H).1 σ = run S n (.init syms tail) σ ∧
    ∀ σ1 o t, run S n (.init syms tail) σ = some ((σ1, o), t) →
      σ1.keys = addKeys (intro (.init syms tail)) σ.keys ∧ (∀ y, F y → σ1.get y = σ.get y) ∧
      (o = none → Inv S (expand (.init syms tail) H).2
        (fun y => F y ∨ adds (.init syms tail) y) σ1) := by
  simp only [Plain] at hp
  obtain ⟨hp1, hp2⟩ := hp
  obtain ⟨e1, e2⟩ := runSyms_sim S hS H F _ syms arr vis σ hp1 hv hσ hF hI
  have hmid : ∀ σ1 t, runSyms S syms σ = some (σ1, t) → Inv S H F σ1 := by
    intro σ1 t h
    obtain ⟨k1, k2, k3⟩ := e2 σ1 t h
    refine hI.frame (fun y hy => k2 y (hF y hy)) ?_
    intro y hy
    rw [k1, mem_addKeys _ _ ((keys_ne σ).2 hσ)]
    exact Or.inr hy
  have htl : ∀ p ∈ tail, ¬ F p.1 := by
    intro p hpm h0
    exact plainSyms_fresh _ _ _ _ hp1 _ (hp2 p hpm) (hF _ h0)
  refine ⟨?_, ?_⟩
  · simp only [expand, run]
    rw [e1]
    apply bind_congr
    intro σ1 t h
    rw [(runSubs_sim S H F tail σ1 htl (hmid σ1 t h)).1]
  · intro σ2 o t h
    simp only [run, bind_some, pure_some] at h
    obtain ⟨σ1, t1, t2, h1, ⟨σ3, t3, t4, h2, ⟨h3, rfl⟩, rfl⟩, rfl⟩ := h
    obtain ⟨rfl, rfl⟩ := Prod.mk.inj h3
    obtain ⟨k1, k2, k3⟩ := e2 σ1 t1 h1
    obtain ⟨j1, j2⟩ := (runSubs_sim S H F tail σ1 htl (hmid σ1 t1 h1)).2 _ _ h2
    have hg : ∀ y, F y → σ2.get y = σ.get y := by
      intro y hy
      rw [j2 y, k2 y (hF y hy)]
      rintro p hpm rfl
      exact htl p hpm hy
    have hkk : ∀ y ∈ σ.keys.flatten, y ∈ σ2.keys.flatten := by
      intro y hy
      rw [j1, k1, mem_addKeys _ _ ((keys_ne σ).2 hσ)]
      exact Or.inr hy
    refine ⟨by rw [j1, k1]; rfl, hg, fun _ => ?_⟩
    have hI2 : Inv S H F σ2 := hI.frame hg hkk
    intro x e hx
    simp only [expand] at hx
    rcases get_holdSyms _ _ _ _ hH hx with ⟨q', hq', hc, hn, he⟩ | hx
    · obtain ⟨q, hq, rfl⟩ := List.mem_map.1 hq'
      have hqc : q.const = true := hc
      have hqn : q.name = x := hn
      have htag := hok q hq hqc
      have hd := tag_dims q htag
      obtain ⟨l1, l2⟩ := plainSyms_mem _ _ _ _ hp1 q hq hd
      have he' : e ∈ expandExs H q.subs := he
      rw [expandExs_map] at he'
      obtain ⟨e0, he0, rfl⟩ := List.mem_map.1 he'
      have hsub : q.subs = [e0] := by
        cases hqs : q.subs with
        | nil => rw [hqs] at he0; simp at he0
        | cons a as =>
          rw [hqs] at l1 he0
          have : as = [] := by
            cases as with
            | nil => rfl
            | cons c cs => simp at l1
          subst this
          simp only [List.mem_singleton] at he0
          rw [he0]
      have htail : tail = [] := by
        cases tail with
        | nil => rfl
        | cons p ps =>
          have := l2 rfl
          rw [this] at hsub
          simp at hsub
      subst htail
      simp only [runSubs, pure_some] at h2
      obtain ⟨rfl, _⟩ := h2
      obtain ⟨v, g1, g2⟩ := k3 q hq hd e0 hsub
      refine ⟨v, by rw [← hqn]; exact g1, by rw [eval_expand S H F _ hI2]; exact g2, Or.inr ⟨?_, ?_⟩⟩
      · exact Or.inr ⟨q, hq, hqc, Or.inl hqn.symm⟩
      · intro y hy
        rcases reads_expand H y e0 hy with hy' | ⟨z, ez, hz1, hz2, hz3⟩
        · exact Or.inr ⟨q, hq, hqc, Or.inr (by rw [hsub]; simp [readsAll, hy'])⟩
        · obtain ⟨_, _, _, hz4⟩ := hI z ez hz1
          rcases hz4 with rfl | ⟨_, hz5⟩
          · simp only [reads, readsAll, List.mem_singleton] at hz3
            subst hz3
            exact Or.inr ⟨q, hq, hqc, Or.inr (by rw [hsub]; simp [readsAll, hz2])⟩
          · exact Or.inl (hz5 y hz3)
    · exact (hI2.mono fun y hy => Or.inl hy) x e hx

end Verif.Expand
