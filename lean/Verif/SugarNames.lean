import Verif.SugarExpr

set_option linter.unusedSimpArgs false
set_option linter.unusedVariables false
set_option linter.unusedSectionVars false

namespace Verif.Sugar

variable {K : Type} {S : Sem K} {mixed : Name → Bool}

/-- Statements made for temporaries. -/
def InitOk (s : Stmt K) : Prop :=
  (∃ k d, s = .decl (.auto k) d) ∨ ∃ k e, s = .assign (.auto k) [] e ∧ usesE (below k) e ∧ wfE e

theorem newInit_ok {n : Nat} {e : Expr K} (h : usesE (below n) e) (hw : wfE e) : ∀ s ∈ newInit n e, InitOk s := by
  intro s hs
  simp only [newInit, List.mem_cons, List.not_mem_nil, or_false] at hs
  rcases hs with rfl | rfl
  · exact .inl ⟨_, _, rfl⟩
  · exact .inr ⟨_, _, rfl, h, hw⟩

/-- What is known about the text of a changed expression. -/
structure NamesE (e : Expr K) (n : Nat) (r : List (Stmt K) × Expr K × Nat) : Prop where
  le : n ≤ r.2.2
  names : ∀ P : Name → Prop, usesE P e → (∀ k, n ≤ k → k < r.2.2 → P (.auto k)) → usesE P r.2.1
  inits : usesE (below n) e → wfE e → ∀ s ∈ r.1, InitOk s
  wf : wfE e → wfE r.2.1
  dim : dims r.2.1 = dims e

/-- A list. -/
structure NamesEs (es : List (Expr K)) (n : Nat) (r : List (Stmt K) × List (Expr K) × Nat) : Prop where
  le : n ≤ r.2.2
  names : ∀ P : Name → Prop, usesEs P es → (∀ k, n ≤ k → k < r.2.2 → P (.auto k)) → usesEs P r.2.1
  inits : usesEs (below n) es → wfEs es → ∀ s ∈ r.1, InitOk s
  wf : wfEs es → wfEs r.2.1
  dim : r.2.1.map dims = es.map dims

/-- Accesses. -/
structure NamesAs (es : List (Acc K)) (n : Nat) (r : List (Stmt K) × List (Acc K) × Nat) : Prop where
  le : n ≤ r.2.2
  names : ∀ P : Name → Prop, usesAs P es → (∀ k, n ≤ k → k < r.2.2 → P (.auto k)) → usesAs P r.2.1
  inits : usesAs (below n) es → wfAs es → ∀ s ∈ r.1, InitOk s
  wf : wfAs es → wfAs r.2.1
  len : r.2.1.length = es.length

/-- One access. -/
structure NamesA (a : Acc K) (n : Nat) (r : List (Stmt K) × Acc K × Nat) : Prop where
  le : n ≤ r.2.2
  names : ∀ P : Name → Prop, usesA P a → (∀ k, n ≤ k → k < r.2.2 → P (.auto k)) → usesA P r.2.1
  inits : usesA (below n) a → wfA a → ∀ s ∈ r.1, InitOk s
  wf : wfA a → wfA r.2.1

theorem NamesE.below {e : Expr K} {n m : Nat} {r : List (Stmt K) × Expr K × Nat} (h : NamesE e n r) (hm : r.2.2 ≤ m)
    (he : usesE (below n) e) : usesE (below m) r.2.1 :=
  h.names _ (usesE.imp (below.mono (le_trans h.le hm)) e he) (fun k _ hk => Nat.lt_of_lt_of_le hk hm)

theorem NamesEs.below {e : List (Expr K)} {n m : Nat} {r : List (Stmt K) × List (Expr K) × Nat} (h : NamesEs e n r) (hm : r.2.2 ≤ m)
    (he : usesEs (below n) e) : usesEs (below m) r.2.1 :=
  h.names _ (usesEs.imp (below.mono (le_trans h.le hm)) e he) (fun k _ hk => Nat.lt_of_lt_of_le hk hm)

theorem NamesAs.below {e : List (Acc K)} {n m : Nat} {r : List (Stmt K) × List (Acc K) × Nat} (h : NamesAs e n r) (hm : r.2.2 ≤ m)
    (he : usesAs (below n) e) : usesAs (below m) r.2.1 :=
  h.names _ (usesAs.imp (below.mono (le_trans h.le hm)) e he) (fun k _ hk => Nat.lt_of_lt_of_le hk hm)

theorem filter1_names (e : Expr K) (n : Nat) : NamesE e n (filter1 e n) := by
  unfold filter1
  split
  · refine ⟨Nat.le_succ _, fun P _ hP => ⟨hP n (le_refl _) (Nat.lt_succ_self _), trivial⟩, fun h1 h2 => newInit_ok h1 h2,
      fun _ => trivial, rfl⟩
  · exact ⟨le_refl _, fun P h _ => h, fun _ _ s hs => absurd hs (by simp), fun h => h, rfl⟩

theorem filter_names : ∀ (es : List (Expr K)) (n : Nat), NamesEs es n (filter es n)
  | [], n => ⟨le_refl _, fun P h _ => h, fun _ _ s hs => absurd hs (by simp [filter]), fun h => h, rfl⟩
  | e :: es, n => by
    unfold filter
    split
    · have ih := filter_names es (n + 1)
      refine ⟨le_trans (Nat.le_succ _) ih.le, fun P h hP => ⟨⟨hP n (le_refl _) (Nat.lt_of_lt_of_le (Nat.lt_succ_self _) ih.le), trivial⟩,
        ih.names P h.2 (fun k h1 h2 => hP k (by omega) h2)⟩, fun h1 h2 s hs => ?_, fun h => ⟨trivial, ih.wf h.2⟩, ?_⟩
      · rcases List.mem_append.1 hs with hs | hs
        · exact newInit_ok h1.1 h2.1 s hs
        · exact ih.inits (usesEs.imp (below.mono (Nat.le_succ _)) es h1.2) h2.2 s hs
      · rw [List.map_cons, List.map_cons, ih.dim]; rfl
    · have ih := filter_names es n
      refine ⟨ih.le, fun P h hP => ⟨h.1, ih.names P h.2 hP⟩, fun h1 h2 s hs => ih.inits h1.2 h2.2 s hs,
        fun h => ⟨h.1, ih.wf h.2⟩, ?_⟩
      rw [List.map_cons, List.map_cons, ih.dim]

/-- A change followed by another one. -/
theorem NamesE.then {e : Expr K} {n : Nat} {r q : List (Stmt K) × Expr K × Nat} (h : NamesE e n r) (k : NamesE r.2.1 r.2.2 q) :
    NamesE e n (r.1 ++ q.1, q.2.1, q.2.2) := by
  refine ⟨le_trans h.le k.le, fun P he hP => ?_, fun h1 h2 s hs => ?_, fun hw => k.wf (h.wf hw), k.dim.trans h.dim⟩
  · refine k.names P (h.names P he fun j h1 h2 => hP j h1 (Nat.lt_of_lt_of_le h2 k.le)) fun j h1 h2 => hP j (le_trans h.le h1) h2
  · rcases List.mem_append.1 hs with hs | hs
    · exact h.inits h1 h2 s hs
    · exact k.inits (h.below (le_refl _) h1) (h.wf h2) s hs

theorem NamesEs.then {e : List (Expr K)} {n : Nat} {r q : List (Stmt K) × List (Expr K) × Nat} (h : NamesEs e n r)
    (k : NamesEs r.2.1 r.2.2 q) : NamesEs e n (r.1 ++ q.1, q.2.1, q.2.2) := by
  refine ⟨le_trans h.le k.le, fun P he hP => ?_, fun h1 h2 s hs => ?_, fun hw => k.wf (h.wf hw), k.dim.trans h.dim⟩
  · refine k.names P (h.names P he fun j h1 h2 => hP j h1 (Nat.lt_of_lt_of_le h2 k.le)) fun j h1 h2 => hP j (le_trans h.le h1) h2
  · rcases List.mem_append.1 hs with hs | hs
    · exact h.inits h1 h2 s hs
    · exact k.inits (h.below (le_refl _) h1) (h.wf h2) s hs

theorem fixPow_uses {P : Name → Prop} {op : Op} {l r : Expr K} (h : usesE P r) : usesE P (fixPow S op l r) := by
  unfold fixPow
  split
  · split
    · exact ⟨trivial, h⟩
    · exact h
  · split
    · exact ⟨trivial, h⟩
    · exact h
  · exact h

theorem fixPow_wf {op : Op} {l r : Expr K} (h : wfE r) : wfE (fixPow S op l r) := by
  unfold fixPow
  split
  · split
    · exact ⟨trivial, h⟩
    · exact h
  · split
    · exact ⟨trivial, h⟩
    · exact h
  · exact h

/-- Two expressions extended, then both filtered. -/
theorem two_names {l r : Expr K} {n : Nat} {L R : List (Stmt K) × Expr K × Nat} (hL : NamesE l n L) (hR : NamesE r L.2.2 R) :
    n ≤ (filter1 R.2.1 (filter1 L.2.1 R.2.2).2.2).2.2 ∧
    (∀ P : Name → Prop, usesE P l → usesE P r →
      (∀ k, n ≤ k → k < (filter1 R.2.1 (filter1 L.2.1 R.2.2).2.2).2.2 → P (.auto k)) →
      usesE P (filter1 L.2.1 R.2.2).2.1 ∧ usesE P (filter1 R.2.1 (filter1 L.2.1 R.2.2).2.2).2.1) ∧
    (usesE (below n) l → usesE (below n) r → wfE l → wfE r →
      ∀ s ∈ L.1 ++ R.1 ++ (filter1 L.2.1 R.2.2).1 ++ (filter1 R.2.1 (filter1 L.2.1 R.2.2).2.2).1, InitOk s) := by
  have fl := filter1_names L.2.1 R.2.2
  have fr := filter1_names R.2.1 (filter1 L.2.1 R.2.2).2.2
  have e1 := hL.le
  have e2 := hR.le
  have e3 := fl.le
  have e4 := fr.le
  refine ⟨by omega, fun P hl hr hP => ⟨?_, ?_⟩, fun h1 h2 h3 h4 s hs => ?_⟩
  · exact fl.names P (hL.names P hl fun k a b => hP k (by omega) (by omega)) fun k a b => hP k (by omega) (by omega)
  · exact fr.names P (hR.names P hr fun k a b => hP k (by omega) (by omega)) fun k a b => hP k (by omega) (by omega)
  · simp only [List.mem_append] at hs
    rcases hs with ((hs | hs) | hs) | hs
    · exact hL.inits h1 h3 s hs
    · exact hR.inits (usesE.imp (below.mono hL.le) r h2) h4 s hs
    · exact fl.inits (hL.below hR.le h1) (hL.wf h3) s hs
    · exact fr.inits (hR.below fl.le (usesE.imp (below.mono hL.le) r h2)) (hR.wf h4) s hs

mutual
theorem extE_names (i : Bool) (e : Expr K) (n : Nat) : NamesE e n (extE S mixed i e n) := by
  match e with
  | .num _ => exact ⟨le_refl _, fun P h _ => h, fun _ _ s hs => absurd hs (by simp [extE]), fun h => h, rfl⟩
  | .var d x acc =>
    have h := extAs_names (i || mixed x) acc n
    simp only [extE]
    split
    · refine ⟨le_trans h.le (Nat.le_succ _), fun P he hP => ⟨hP _ h.le (Nat.lt_succ_self _), trivial⟩, fun h1 h2 s hs => ?_,
        fun _ => trivial, rfl⟩
      rcases List.mem_append.1 hs with hs | hs
      · exact h.inits h1.2 h2 s hs
      · exact newInit_ok (e := .var d x (extAs S mixed (i || mixed x) acc n).2.1) ⟨below.mono h.le x h1.1, h.below (le_refl _) h1.2⟩ (h.wf h2) s hs
    · exact ⟨h.le, fun P he hP => ⟨he.1, h.names P he.2 hP⟩, fun h1 h2 => h.inits h1.2 h2, h.wf, rfl⟩
  | .infix op l r =>
    have hL := extE_names i l n
    have hR := extE_names i r (extE S mixed i l n).2.2
    obtain ⟨a, b, c⟩ := two_names hL hR
    simp only [extE]
    refine ⟨a, fun P he hP => ?_, fun h1 h2 => c h1.1 h1.2 h2.1 h2.2, fun hw => ?_, rfl⟩
    · obtain ⟨u, v⟩ := b P he.1 he.2 hP
      exact ⟨u, fixPow_uses v⟩
    · exact ⟨(filter1_names _ _).wf (hL.wf hw.1), fixPow_wf ((filter1_names _ _).wf (hR.wf hw.2))⟩
  | .pre op e =>
    have h := (extE_names i e n).then (filter1_names _ _)
    exact ⟨h.le, h.names, h.inits, h.wf, rfl⟩
  | .call d f args =>
    have h := (extEs_names i args n).then (filter_names _ _)
    exact ⟨h.le, h.names, h.inits, h.wf, rfl⟩
  | .switch d c l r =>
    have hL := extE_names i l n
    have hR := extE_names i r (extE S mixed i l n).2.2
    obtain ⟨a, b, w⟩ := two_names hL hR
    simp only [extE]
    refine ⟨a, fun P he hP => ?_, fun h1 h2 => w h1.2.1 h1.2.2 h2.2.1 h2.2.2.1, fun hw => ?_, rfl⟩
    · obtain ⟨u, v⟩ := b P he.2.1 he.2.2 hP
      exact ⟨he.1, u, v⟩
    · refine ⟨hw.1, (filter1_names _ _).wf (hL.wf hw.2.1), (filter1_names _ _).wf (hR.wf hw.2.2.1), ?_, ?_⟩
      · rw [(filter1_names _ _).dim, hL.dim, hw.2.2.2.1]
      · rw [(filter1_names _ _).dim, hR.dim, hw.2.2.2.2]
  | .arr d vs =>
    have h := (extEs_names i vs n).then (filter_names _ _)
    refine ⟨h.le, h.names, fun h1 h2 => h.inits h1 h2.1, fun hw => ⟨h.wf hw.1, ?_⟩, rfl⟩
    obtain ⟨ds, h1, h2⟩ := hw.2
    have hd := h.dim
    have hl : (filter (extEs S mixed i vs n).2.1 (extEs S mixed i vs n).2.2).2.1.length = vs.length := by
      have := congrArg List.length hd
      simpa using this
    refine ⟨ds, by rw [hl]; exact h1, fun v hv => ?_⟩
    have hm : dims v ∈ (filter (extEs S mixed i vs n).2.1 (extEs S mixed i vs n).2.2).2.1.map dims := List.mem_map.2 ⟨v, hv, rfl⟩
    have hm' : dims v ∈ vs.map dims := by
      rw [← hd]; exact hm
    obtain ⟨u, hu, e⟩ := List.mem_map.1 hm'
    rw [← e, h2 u hu]
  | .uni d v k =>
    have h := (extE_names i v n).then (filter1_names _ _)
    refine ⟨h.le, h.names, fun h1 h2 => h.inits h1 h2.1, fun hw => ⟨h.wf hw.1, ?_⟩, rfl⟩
    have hd := h.dim
    exact ⟨hw.2.1.trans (congrArg (k :: ·) hd.symm), hw.2.2⟩

theorem extEs_names (i : Bool) (es : List (Expr K)) (n : Nat) : NamesEs es n (extEs S mixed i es n) := by
  match es with
  | [] => exact ⟨le_refl _, fun P h _ => h, fun _ _ s hs => absurd hs (by simp [extEs]), fun h => h, rfl⟩
  | e :: es =>
    have h1 := extE_names i e n
    have h2 := extEs_names i es (extE S mixed i e n).2.2
    have e1 := h1.le
    have e2 := h2.le
    simp only [extEs]
    refine ⟨le_trans e1 e2, fun P he hP => ⟨h1.names P he.1 fun k a b => hP k a (Nat.lt_of_lt_of_le b e2),
      h2.names P he.2 fun k a b => hP k (by omega) b⟩, fun u w s hs => ?_, fun hw => ⟨h1.wf hw.1, h2.wf hw.2⟩, ?_⟩
    · rcases List.mem_append.1 hs with hs | hs
      · exact h1.inits u.1 w.1 s hs
      · exact h2.inits (usesEs.imp (below.mono e1) es u.2) w.2 s hs
    · rw [List.map_cons, List.map_cons, h1.dim, h2.dim]

theorem extAs_names (i : Bool) (es : List (Acc K)) (n : Nat) : NamesAs es n (extAs S mixed i es n) := by
  match es with
  | [] => exact ⟨le_refl _, fun P h _ => h, fun _ _ s hs => absurd hs (by simp [extAs]), fun h => h, rfl⟩
  | e :: es =>
    have h1 := extA_names i e n
    have h2 := extAs_names i es (extA S mixed i e n).2.2
    have e1 := h1.le
    have e2 := h2.le
    simp only [extAs]
    refine ⟨le_trans e1 e2, fun P he hP => ⟨h1.names P he.1 fun k a b => hP k a (Nat.lt_of_lt_of_le b e2),
      h2.names P he.2 fun k a b => hP k (by omega) b⟩, fun u w s hs => ?_, fun hw => ⟨h1.wf hw.1, h2.wf hw.2⟩, ?_⟩
    · rcases List.mem_append.1 hs with hs | hs
      · exact h1.inits u.1 w.1 s hs
      · exact h2.inits (usesAs.imp (below.mono e1) es u.2) w.2 s hs
    · simp [h2.len]

theorem extA_names (i : Bool) (a : Acc K) (n : Nat) : NamesA a n (extA S mixed i a n) := by
  match a with
  | .fld _ => exact ⟨le_refl _, fun P h _ => h, fun _ _ s hs => absurd hs (by simp [extA]), fun h => h⟩
  | .idx e =>
    have h := (extE_names i e n).then (filter1_names _ _)
    exact ⟨h.le, h.names, h.inits, h.wf⟩
end

end Verif.Sugar
