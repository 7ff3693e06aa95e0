import Verif.GrammarPrint

/-! # More about the trees: the branches of `if`, refusals, the pieces of a text -/

set_option linter.unusedSimpArgs false
set_option linter.unusedVariables false

namespace Verif.Grammar

/-- Ends with an `if` that has no `else`. -/
def openEnd : Node → Bool
  | .ift _ _ => true
  | .ite _ _ e => openEnd e
  | _ => false

/-- Is an `if`. -/
def isIf : Node → Bool
  | .ift _ _ | .ite _ _ _ => true
  | _ => false

/-- Everywhere in a tree, the first branch of an `if` with `else` does not end with an `if` without one, and the body of a loop is no `if`. -/
def Nearest : Node → Prop
  | .ift _ t => Nearest t
  | .ite _ t e => openEnd t = false ∧ Nearest t ∧ Nearest e
  | .whil _ b => isIf b = false ∧ Nearest b
  | .block l => Nearest l
  | .cons h t => Nearest h ∧ Nearest t
  | .fn _ _ b => Nearest b
  | .templ _ _ b _ _ _ => Nearest b
  | .busDef _ _ b => Nearest b
  | .file _ _ ds _ => Nearest ds
  | _ => True

section
variable {p : Nat} {ni : Bool}

def Near : Nt → Node → Prop
  | .subst, v | .decl, v | .s2, v | .block, v => isIf v = false ∧ Nearest v
  | .s1, v => openEnd v = false ∧ Nearest v
  | .nb, v | .stmt0, v | .s3, v | .stmts, v | .defn, v | .defns, v | .file, v => Nearest v
  | _, _ => True

theorem open_if {v} (h : isIf v = false) : openEnd v = false := by cases v <;> simp_all [isIf, openEnd]

theorem near {s ts v} (h : D p ni s ts v) : Near s v := by
  induction h with
  | @assign _ _ l => cases l <;> exact ⟨rfl, trivial⟩
  | @right _ _ _ r => cases r <;> exact ⟨rfl, trivial⟩
  | short | incr | decr | ret | eqc | log | logNone | assert | anonStmt => exact ⟨rfl, trivial⟩
  | varTuple | varTupleInit | compTuple | compTupleInit | sigTuple | sigTupleInit | varDecl | compDecl | sigDecl | sigDeclSig | busDecl | busDeclSig =>
    exact ⟨rfl, trivial⟩
  | block _ ih => exact ⟨rfl, ih⟩
  | s0nb _ ih => exact ih
  | s0s1 _ ih => exact ih.2
  | nbnb _ _ _ ih => exact ih
  | nbs1 _ _ _ ih => exact ih.2
  | nbElse _ _ _ _ ih ih' => exact ⟨ih.1, ih.2, ih'⟩
  | s1Else _ _ _ _ ih ih' => exact ⟨ih'.1, ih.1, ih.2, ih'.2⟩
  | s1s2 _ ih => exact ⟨open_if ih.1, ih.2⟩
  | forDecl _ _ _ _ ih1 _ ih2 ih3 => exact ⟨rfl, ih1.2, ⟨rfl, ih3.2, ih2.2, trivial⟩, trivial⟩
  | forSubst _ _ _ _ ih1 _ ih2 ih3 => exact ⟨rfl, ih1.2, ⟨rfl, ih3.2, ih2.2, trivial⟩, trivial⟩
  | whil _ _ _ ih => exact ⟨rfl, ih⟩
  | sub _ ih => exact ih
  | blockStmt _ ih => exact ih
  | s3Decl _ ih => exact ih.2
  | s3Stmt _ ih => exact ih
  | stmtsNil => trivial
  | stmtsCons _ _ ih ih' => exact ⟨ih, ih'⟩
  | fn _ _ _ ih | templ _ _ _ ih | busDef _ _ _ ih => exact ih.2
  | defnsNil => trivial
  | defnsCons _ _ ih ih' => exact ⟨ih, ih'⟩
  | file _ _ _ _ _ _ ih _ => exact ih
  | _ => trivial

/-- A token no expression begins with. -/
theorem exp_fail {a t} (h : stE a = false) : Fail p ni (.n .exp) (a :: t) := by
  have h1 : st1 a = false := by
    cases hh : st1 a with
    | false => rfl
    | true => rw [stE_of (st2_of hh)] at h; cases h
  have h0 : Fail p ni (.n .t0) (a :: t) := big_true.fail fun f _ => by
    show pT0 p f (a :: t) = _
    unfold pT0
    split <;> first | rfl | (rename_i hh; cases hh; cases h)
  have hf1 : Fail p ni (.n .t1) (a :: t) := h0.big.fail fun f hf => by
    show pT1 f (a :: t) = _
    unfold pT1
    split <;> first | exact hf | (rename_i hh; cases hh; cases h)
  have hf2 : Fail p ni (.n .t2) (a :: t) := hf1.big.fail fun f hf => by
    show pT2 f (a :: t) = _
    unfold pT2
    split <;> first | exact hf | (rename_i hh; cases hh; cases h)
  have ht : ∀ k, Fail p ni (.n (.tier (k + 3))) (a :: t) := by
    intro k
    induction k with
    | zero =>
      refine hf2.big.fail fun f hf => ?_
      show pTier f 3 _ = _
      unfold pTier
      rw [show below 3 = Nt.t2 from rfl, hf]; rfl
    | succ k ih =>
      refine ih.big.fail fun f hf => ?_
      show pTier f (k + 1 + 3) _ = _
      unfold pTier
      rw [show below (k + 1 + 3) = Nt.tier (k + 3) by unfold below; rw [if_neg (by omega)]; rfl, hf]; rfl
  have h12 : Fail p ni (.n .exp1) (a :: t) := (ht 9).big.fail fun f hf => by
    show pExp1 f _ = _
    unfold pExp1
    rw [hf]; rfl
  exact h12.big.fail fun f hf => by
    show pExp f _ = _
    unfold pExp
    split
    · rename_i hh; cases hh; cases h
    · exact hf

theorem s2_fail_if {t} : Fail p ni (.n .s2) (.kw .if_ :: t) := by
  have h1 : Fail p ni (.n .exp) (.kw .if_ :: t) := exp_fail rfl
  have h2 : Fail p ni (.n .subst) (.kw .if_ :: t) := h1.big.fail fun f hf => by
    show pSubst p f _ = _
    unfold pSubst
    rw [hf]; rfl
  exact (h1.big.and h2.big).fail fun f hf => by simp [step, pS2, hf.1, hf.2]

/-- After a prefix operator there is an operand. -/
theorem pre_second {s ts v} (h : D p ni s ts v) (hs : s = .exp ∨ s = .exp1 ∨ (∃ k, s = .tier k) ∨ s = .t2) :
    ∀ o u, ts = preTok o :: u → ∃ a u', u = a :: u' ∧ st1 a = true := by
  have key : ∀ {t : List Tok} {b : Tok} {w}, t ≠ [] → (∀ o u, t = preTok o :: u → ∃ a u', u = a :: u' ∧ st1 a = true) →
      ∀ o u, t ++ b :: w = preTok o :: u → ∃ a u', u = a :: u' ∧ st1 a = true := by
    intro t b w hne h o u e
    match t, hne with
    | x :: t', _ =>
      simp only [List.cons_append, List.cons.injEq] at e
      obtain ⟨a, u', e', ha⟩ := h o t' (by rw [e.1])
      exact ⟨a, u' ++ b :: w, by rw [← e.2, e']; rfl, ha⟩
  have ne : ∀ {s t v}, D p ni s t v → nullable s = false → t ≠ [] := by
    intro s t v h hn e
    obtain ⟨_, _, h', _⟩ := nonempty h hn
    rw [h'] at e; cases e
  induction h with
  | exp12 _ ih | exp _ ih => exact ih (by simp)
  | pre h _ =>
    intro o u e
    simp only [List.cons.injEq] at e
    obtain ⟨a, u', h', ha⟩ := nonempty h rfl
    exact ⟨a, u', by rw [← e.2, h'], ha⟩
  | two h _ =>
    intro o u e
    obtain ⟨a, u', h', ha⟩ := nonempty h rfl
    rw [h'] at e
    simp only [List.cons.injEq] at e
    rw [e.1] at ha
    cases o <;> cases ha
  | up _ _ h ih =>
    unfold below at ih
    refine ih ?_
    split <;> simp
  | inf h _ ih _ => exact key (ne h rfl) (ih (by simp))
  | switch h _ _ ih _ _ => rw [List.append_assoc]; exact key (ne h rfl) (ih (by simp))
  | par _ _ => intro o u e; cases o <;> cases e
  | _ => simp at hs

end

theorem pieces_cons (room : Nat) (cur : List Char) (c : Char) (cs : List Char) : pieces room cur (c :: cs) =
    if room = 0 then (pieces (230 - c.utf8Size) [c] cs).map (String.ofList cur.reverse :: ·)
    else if c.utf8Size ≤ room then pieces (room - c.utf8Size) (c :: cur) cs
    else none := by cases cur <;> rfl

theorem pieces_spec : ∀ (cs : List Char) (room : Nat) (cur : List Char) (ss : List String),
    room + (cur.map Char.utf8Size).sum = 230 → pieces room cur cs = some ss →
    (ss.map String.toList).flatten = cur.reverse ++ cs ∧ ∀ x ∈ ss, x ≠ "" ∧ (x.toList.map Char.utf8Size).sum ≤ 230 := by
  intro cs
  induction cs with
  | nil =>
    intro room cur ss hr h
    cases cur with
    | nil => simp [pieces] at h; subst h; simp
    | cons c cur =>
      simp only [pieces, Option.some.injEq] at h
      subst h
      refine ⟨by simp, ?_⟩
      intro x hx
      simp only [List.mem_singleton] at hx
      subst hx
      refine ⟨?_, ?_⟩
      · intro e
        have := congrArg String.toList e
        simp at this
      · simp only [List.map_cons, List.sum_cons] at hr
        simp [String.toList_ofList, List.map_reverse, List.sum_reverse]
        omega
  | cons c cs ih =>
    intro room cur ss hr h
    rw [pieces_cons] at h
    split at h
    · rename_i h0
      subst h0
      simp only [Option.map_eq_some_iff] at h
      obtain ⟨ss', h', rfl⟩ := h
      have hc : c.utf8Size ≤ 4 := Char.utf8Size_le_four c
      obtain ⟨e, hb⟩ := ih (230 - c.utf8Size) [c] ss' (by simp; omega) h'
      refine ⟨by simp [e], ?_⟩
      intro x hx
      rcases List.mem_cons.1 hx with rfl | hx
      · refine ⟨?_, ?_⟩
        · intro e
          have := congrArg String.toList e
          simp at this
          subst this
          simp at hr
        · simp [String.toList_ofList, List.map_reverse, List.sum_reverse]
          omega
      · exact hb x hx
    · split at h
      · rename_i h1 h2
        obtain ⟨e, hb⟩ := ih (room - c.utf8Size) (c :: cur) ss (by simp only [List.map_cons, List.sum_cons]; omega) h
        exact ⟨by simpa using e, hb⟩
      · cases h

theorem pieces_ascii : ∀ (cs : List Char), (∀ c ∈ cs, c.utf8Size = 1) → ∀ room cur, (pieces room cur cs).isSome := by
  intro cs
  induction cs with
  | nil => intro _ room cur; cases cur <;> rfl
  | cons c cs ih =>
    intro h room cur
    have hc := h c (by simp)
    have ih := ih fun d hd => h d (by simp [hd])
    rw [pieces_cons]
    split
    · rw [Option.isSome_map]; exact ih _ _
    · rename_i h0
      rw [if_pos (by omega)]
      exact ih _ _

end Verif.Grammar
