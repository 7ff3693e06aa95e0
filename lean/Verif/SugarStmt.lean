import Verif.SugarSplit

set_option linter.unusedSimpArgs false
set_option linter.unusedVariables false
set_option linter.unusedSectionVars false

namespace Verif.Sugar

variable {K : Type} {S : Sem K} {F : Fns K} {N : Nat} {mixed : Name → Bool}

/-! ## Statements the pass treats rightly -/

/-- Names of the source only, dimensions right. -/
def okE (e : Expr K) : Prop := usesE (below 0) e ∧ wfE e

/-- Nothing is put in front when the expression is the right side of a statement. -/
def calmE (mixed : Name → Bool) : Expr K → Bool
  | .call _ _ args => args.all (quietE mixed false)
  | .switch _ _ a b => quietE mixed false a && quietE mixed false b
  | .arr _ vs => vs.all (quietE mixed false)
  | .uni _ v _ => quietE mixed false v
  | e => quietE mixed false e

/-- Nothing is put in front of the statement. -/
def quietS (mixed : Name → Bool) : Stmt K → Bool
  | .decl _ _ => true
  | .assign _ acc e => calmE mixed e && quietAs mixed false acc
  | .eqc l r => calmE mixed l && calmE mixed r
  | .log args => args.all (calmE mixed)
  | .assert e => calmE mixed e
  | .ret e => calmE mixed e
  | .ite c a b => quietE mixed false c && quietS mixed a && quietS mixed b
  | .loop c s => quietE mixed false c && quietS mixed s
  | .block _ => true
  | .init _ => true

/-- Assignment of a literal: no element that stays in place names the variable. -/
def litOk (x : Name) (acc : List (Acc K)) : Expr K → Prop
  | .arr _ vs => (vs = [] → acc = []) ∧ usesAs (· ≠ x) acc ∧ ∀ v ∈ vs, isSugar v = true ∨ usesE (· ≠ x) v
  | .uni _ v _ => usesAs (· ≠ x) acc ∧ (isSugar v = true ∨ usesE (· ≠ x) v)
  | _ => True

mutual
/-- Statements that keep their meaning: literals are not assigned to variables they mention; equalities with an inline array have
one of the same length on the other side; conditions and bodies of loops have nothing that is put in front of the loop. -/
def tameS (mixed : Name → Bool) : Stmt K → Prop
  | .decl x _ => below 0 x
  | .assign x acc e => below 0 x ∧ (usesAs (below 0) acc ∧ wfAs acc) ∧ okE e ∧ litOk x acc e
  | .eqc l r => okE l ∧ okE r ∧ eqOk l r
  | .log args => usesEs (below 0) args ∧ wfEs args
  | .assert e => okE e
  | .ret e => okE e
  | .ite c a b => okE c ∧ tameS mixed a ∧ tameS mixed b
  | .loop c s => okE c ∧ quietE mixed false c = true ∧ tameS mixed s ∧ quietS mixed s = true
  | .block ss => tameL mixed ss
  | .init _ => False

/-- A list; initialisation blocks are allowed here. -/
def tameL (mixed : Name → Bool) : List (Stmt K) → Prop
  | [] => True
  | .init is :: ss => tameL mixed is ∧ tameL mixed ss
  | s :: ss => tameS mixed s ∧ tameL mixed ss
end

mutual
/-- Everything put in front is evaluated by the source as well. -/
def strictS (mixed : Name → Bool) : Stmt K → Bool
  | .decl _ _ => true
  | .assign _ acc e => strictE mixed false e && strictAs mixed false acc
  | .eqc l r => strictE mixed false l && strictE mixed false r
  | .log args => strictEs mixed false args
  | .assert e => strictE mixed false e
  | .ret e => strictE mixed false e
  | .ite c a b => strictE mixed false c && (quietS mixed a && quietS mixed b) && (strictS mixed a && strictS mixed b)
  | .loop _ s => strictS mixed s
  | .block ss => strictL mixed ss
  | .init _ => true

/-- A list. -/
def strictL (mixed : Name → Bool) : List (Stmt K) → Bool
  | [] => true
  | .init is :: ss => strictL mixed is && strictL mixed ss
  | s :: ss => strictS mixed s && strictL mixed ss
end

/-! ## Comparison of runs -/

/-- A run of the changed text (`x'`) and one of the source: what the first yields the second yields too, up to the names made by
the pass; with `b` also the other way round. -/
def Sim (b : Bool) (x' x : Option (Env K × Option (Val K))) : Prop :=
  (∀ E' r, x' = some (E', r) → ∃ E, x = some (E, r) ∧ AgreeB 0 E E') ∧ (b = true → x.isSome = true → x'.isSome = true)

theorem Sim.none {b : Bool} : Sim (K := K) b none none := ⟨fun _ _ h => (by cases h), fun _ h => h⟩

theorem Sim.some {b : Bool} {E E' : Env K} {r : Option (Val K)} (h : AgreeB 0 E E') : Sim b (some (E', r)) (some (E, r)) := by
  refine ⟨fun E1 r1 h1 => ?_, fun _ _ => rfl⟩
  simp only [Option.some.injEq, Prod.mk.injEq] at h1
  obtain ⟨rfl, rfl⟩ := h1
  exact ⟨E, rfl, h⟩

theorem Sim.rfl' {b : Bool} (x : Option (Env K × Option (Val K))) : Sim b x x := by
  rcases x with _ | ⟨E, r⟩
  · exact Sim.none
  · exact Sim.some AgreeB.rfl'

theorem Sim.weaken {b c : Bool} {x' x : Option (Env K × Option (Val K))} (h : Sim b x' x) (hb : c = true → b = true) : Sim c x' x :=
  ⟨h.1, fun hc => h.2 (hb hc)⟩

theorem Sim.trans {b : Bool} {x y z : Option (Env K × Option (Val K))} (h : Sim b x y) (k : Sim b y z) : Sim b x z := by
  refine ⟨fun E r hx => ?_, fun hb hz => h.2 hb (k.2 hb hz)⟩
  obtain ⟨E1, h1, h2⟩ := h.1 E r hx
  obtain ⟨E2, h3, h4⟩ := k.1 E1 r h1
  exact ⟨E2, h3, h4.trans h2⟩

/-- One after the other. -/
def andThen (x : Option (Env K × Option (Val K))) (y : Env K → Option (Env K × Option (Val K))) : Option (Env K × Option (Val K)) :=
  match x with
  | none => none
  | some (E, some r) => some (E, some r)
  | some (E, none) => y E

theorem Sim.andThen {b : Bool} {x' x : Option (Env K × Option (Val K))} {y' y : Env K → Option (Env K × Option (Val K))}
    (h : Sim b x' x) (k : ∀ E E', AgreeB 0 E E' → Sim b (y' E') (y E)) : Sim b (Sugar.andThen x' y') (Sugar.andThen x y) := by
  rcases x' with _ | ⟨E', r⟩
  · refine ⟨fun _ _ h => (by cases h), fun hb hx => ?_⟩
    have : x.isSome = true := by
      rcases x with _ | _
      · simp [Sugar.andThen] at hx
      · rfl
    simpa using h.2 hb this
  · obtain ⟨E, h1, h2⟩ := h.1 E' r rfl
    subst h1
    rcases r with _ | r
    · exact k E E' h2
    · exact Sim.some h2

theorem execL_cons (s : Stmt K) (ss : List (Stmt K)) (E : Env K) :
    execL S F N (s :: ss) E = andThen (exec S F N s E) (execL S F N ss) := by
  simp only [execL, andThen]
  rfl

theorem execL_app (a b : List (Stmt K)) (E : Env K) :
    execL S F N (a ++ b) E = andThen (execL S F N a E) (execL S F N b) := by
  rw [execL_append]; rfl

theorem Sim.iter {b : Bool} {c' c : Env K → Option Bool} {f' f : Env K → Option (Env K × Option (Val K))}
    (hc : ∀ E E', AgreeB 0 E E' → c' E' = c E) (hf : ∀ E E', AgreeB 0 E E' → Sim b (f' E') (f E)) :
    ∀ (k : Nat) (E E' : Env K), AgreeB 0 E E' → Sim b (Sugar.iter c' f' k E') (Sugar.iter c f k E)
  | 0, _, _, _ => Sim.none
  | k + 1, E, E', h => by
    simp only [Sugar.iter, hc E E' h]
    rcases c E with _ | _ | _
    · exact Sim.none
    · exact Sim.some h
    · exact (hf E E' h).andThen (fun E1 E1' h1 => Sim.iter hc hf k E1 E1' h1)

theorem AgreeB.put {E E' : Env K} {x : Name} {v : Val K} (h : AgreeB 0 E E') : AgreeB 0 (E.put x v) (E'.put x v) := by
  intro y hy
  unfold Env.put
  split
  · rfl
  · exact h y hy

theorem AgreeB.put_ret {n k : Nat} {E E' : Env K} {v : Val K} (h : AgreeB n E E') : AgreeB n E (E'.put (.ret k) v) := by
  intro x hx
  rw [h x hx, put_ne]
  rintro rfl
  exact hx

/-! ## The source depends on its names only -/

mutual
theorem exec_src (s : Stmt K) (hs : tameS mixed s) (E E' : Env K) (h : AgreeB 0 E E') : Sim true (exec S F N s E') (exec S F N s E) := by
  match s with
  | .decl x d => exact Sim.some h.put
  | .assign x acc e =>
    simp only [exec, path_congr S F h.symm acc hs.2.1.1, eval_congr S F h.symm e hs.2.2.1.1, h x hs.1]
    split
    · split
      · exact Sim.none
      · exact Sim.some h.put
    · exact Sim.none
  | .eqc l r =>
    simp only [exec, eval_congr S F h.symm l hs.1.1, eval_congr S F h.symm r hs.2.1.1]
    split
    · split
      · exact Sim.some h
      · exact Sim.none
    · exact Sim.none
  | .log args =>
    simp only [exec, evalL_congr S F h.symm args hs.1]
    split
    · exact Sim.none
    · exact Sim.some h
  | .assert e =>
    simp only [exec, cond_congr S F h.symm e hs.1]
    split
    · exact Sim.some h
    · exact Sim.none
  | .ret e =>
    simp only [exec, eval_congr S F h.symm e hs.1]
    split
    · exact Sim.none
    · exact Sim.some h
  | .ite c a b =>
    simp only [exec, cond_congr S F h.symm c hs.1.1]
    split
    · exact Sim.none
    · exact exec_src a hs.2.1 E E' h
    · exact exec_src b hs.2.2 E E' h
  | .loop c s =>
    simp only [exec]
    exact Sim.iter (fun E E' h => cond_congr S F h.symm c hs.1.1) (fun E E' h => exec_src s hs.2.2.1 E E' h) N E E' h
  | .block ss =>
    simp only [exec]
    exact execL_src ss hs E E' h
  | .init _ => exact absurd hs (by simp [tameS])

theorem execL_src (ss : List (Stmt K)) (hs : tameL mixed ss) (E E' : Env K) (h : AgreeB 0 E E') :
    Sim true (execL S F N ss E') (execL S F N ss E) := by
  match ss with
  | [] => exact Sim.some h
  | s :: ss =>
    by_cases hi : ∃ is, s = .init is
    · obtain ⟨is, rfl⟩ := hi
      rw [execL_cons, execL_cons]
      simp only [tameL] at hs
      simp only [exec]
      exact (execL_src is hs.1 E E' h).andThen (fun E E' h => execL_src ss hs.2 E E' h)
    · rw [tameL] at hs
      · rw [execL_cons, execL_cons]
        exact (exec_src s hs.1 E E' h).andThen (fun E E' h => execL_src ss hs.2 E E' h)
      · intro is h; exact hi ⟨is, h⟩
end

end Verif.Sugar
