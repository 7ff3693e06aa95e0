import Verif.GrammarParse

/-! # First tokens, and the parser finds the trees of expressions -/

set_option linter.unusedSimpArgs false
set_option linter.unusedVariables false

namespace Verif.Grammar

/-- Tokens an operand begins with. -/
def st1 : Tok → Bool
  | .id _ | .under | .num _ | .hex _ | .lpar | .lbr => true
  | _ => false

/-- Tokens an expression without `parallel` begins with. -/
def st2 : Tok → Bool
  | .bang | .tilde | .op .sub => true
  | t => st1 t

/-- Tokens an expression begins with. -/
def stE : Tok → Bool
  | .kw .parallel => true
  | t => st2 t

/-- Tokens a statement other than `if` begins with. -/
def stS2 : Tok → Bool
  | .kw .for_ | .kw .while_ | .kw .return_ | .kw .log | .kw .assert | .lcb => true
  | t => stE t

/-- Tokens a statement begins with. -/
def stS : Tok → Bool
  | .kw .if_ => true
  | t => stS2 t

/-- Tokens a declaration begins with. -/
def stD : Tok → Bool
  | .kw .var | .kw .component | .kw .signal | .kw .input | .kw .output | .id _ => true
  | _ => false

/-- First tokens by non-terminal. -/
def firsts : Nt → Tok → Bool
  | .exp, t | .list, t | .opt, t | .subst, t | .anonArgs, t => stE t
  | .exp1, t | .tier _, t | .t2, t => st2 t
  | .t1, t | .t0, t => st1 t
  | .vari, .id _ | .named, .id _ | .ids, .id _ | .sym, .id _ | .syms, .id _ => true
  | .accs, .lbr | .accs, .dot | .dims, .lbr | .tags, .lcb | .block, .lcb | .params, .lpar | .oparams, .lpar | .tinit, .assign _ => true
  | .stmt0, t | .s1, t => stS t
  | .nb, .kw .if_ => true
  | .s2, t => stS2 t
  | .s3, t | .stmts, t => stS t || stD t
  | .logArgs, .str _ => true
  | .logArgs, t => stE t
  | .hdr, .kw .signal | .hdr, .kw .input | .hdr, .kw .output => true
  | .busHdr, .id _ | .busHdr, .kw .input | .busHdr, .kw .output => true
  | .decl, t => stD t
  | .defn, .kw .function | .defn, .kw .template | .defn, .kw .bus => true
  | .defns, .kw .function | .defns, .kw .template | .defns, .kw .bus => true
  | .main, .kw .component | .pragmas, .kw .pragma | .includes, .kw .include => true
  | .file, _ => true
  | _, _ => false

def nullable : Nt → Bool
  | .accs | .opt | .anonArgs | .stmts | .tags | .dims | .oparams | .defns | .main | .pragmas | .includes | .file => true
  | _ => false

/-- How a sequence of tokens begins. -/
def Begins (s : Nt) (t : List Tok) : Prop := (t = [] ∧ nullable s = true) ∨ ∃ a t', t = a :: t' ∧ firsts s a = true

theorem begins_of {s s' : Nt} {t : List Tok} (h : Begins s t) (hn : nullable s = true → nullable s' = true)
    (hf : ∀ a, firsts s a = true → firsts s' a = true) : Begins s' t := by
  rcases h with ⟨rfl, h⟩ | ⟨a, t', rfl, h⟩
  · exact .inl ⟨rfl, hn h⟩
  · exact .inr ⟨a, t', rfl, hf a h⟩

theorem begins_app {s s' : Nt} {t u : List Tok} (h : Begins s t) (hn : nullable s = false)
    (hf : ∀ a, firsts s a = true → firsts s' a = true) : Begins s' (t ++ u) := by
  rcases h with ⟨rfl, h⟩ | ⟨a, t', rfl, h⟩
  · rw [hn] at h; cases h
  · exact .inr ⟨a, t' ++ u, rfl, hf a h⟩

theorem begins_cons {s : Nt} {a : Tok} {t : List Tok} (h : firsts s a = true) : Begins s (a :: t) := .inr ⟨a, t, rfl, h⟩

theorem st2_of {a} (h : st1 a = true) : st2 a = true := by unfold st2; split <;> simp_all
theorem stE_of {a} (h : st2 a = true) : stE a = true := by unfold stE; split <;> simp_all
theorem stS2_of {a} (h : stE a = true) : stS2 a = true := by unfold stS2; split <;> simp_all
theorem stS_of {a} (h : stS2 a = true) : stS a = true := by unfold stS; split <;> simp_all

theorem below_first (k : Nat) (a : Tok) : firsts (below k) a = st2 a := by unfold below; split <;> rfl
theorem below_nullable (k : Nat) : nullable (below k) = false := by unfold below; split <;> rfl

theorem first_log {a} (h : stE a = true) : firsts .logArgs a = true := by
  cases a <;> first | rfl | exact h

theorem begins {p ni s t v} (h : D p ni s t v) : Begins s t := by
  induction h with
  | accsNil | optNone | anonNone | stmtsNil | tagsNone | dimsNil | oparamsNone | defnsNil | mainNone | pragmasNil | includesNil =>
    exact .inl ⟨rfl, rfl⟩
  | accsIdx | accsFld | vari | namedOne | namedCons | under | dec | hex | paren | anon | call | array | tuple | par | block | nbnb | nbs1
  | nbElse | s1Else | forDecl | forSubst | whil | ret | log | logNone | assert | logStr | logStrCons | idsOne | idsCons | tagsSome
  | hdr | busHdr | busHdrArgs | dimsCons | sym | symInit | tinit | varTuple | varTupleInit | compTuple | compTupleInit | varDecl | compDecl
  | paramsNone | paramsSome | fn | templ | busDef | main | mainPublic | pragmasVersion | pragmasCustom | includesCons =>
    exact begins_cons rfl
  | listOne _ ih | optSome _ ih | anonList _ ih | one _ ih | exp12 _ ih | s0s1 _ ih | oparamsSome _ ih =>
    exact begins_of ih (by simp [nullable]) (by intro a; cases a <;> simp [firsts])
  | var _ ih => exact begins_of ih (by simp [nullable]) (by intro a; cases a <;> simp [firsts, st1])
  | anonNamed _ ih | s0nb _ ih | blockStmt _ ih => 
    refine begins_of ih (by simp [nullable]) (fun a h => ?_)
    cases a <;> simp [firsts, stE, stS, stS2, st2, st1] at h ⊢
    all_goals (rename_i k; cases k <;> simp_all)
  | two _ ih => exact begins_of ih (by simp [nullable]) (fun a h => st2_of h)
  | exp _ ih => exact begins_of ih (by simp [nullable]) (fun a h => stE_of h)
  | s1s2 _ ih => exact begins_of ih (by simp [nullable]) (fun a h => stS_of h)
  | s3Stmt _ ih => exact begins_of ih (by simp [nullable]) (fun a h => by show (stS a || stD a) = true; rw [show stS a = true from h]; rfl)
  | logExp _ ih => exact begins_of ih (by simp [nullable]) (fun a h => first_log h)
  | up _ _ _ ih => exact begins_of ih (by rw [below_nullable]; simp) (fun a h => by rw [below_first] at h; exact h)
  | pre => rename_i o _ _; cases o <;> exact begins_cons rfl
  | listCons _ _ ih _ | assign _ _ ih _ => exact begins_app ih rfl (fun a h => h)
  | symsCons _ _ ih _ => exact begins_app ih rfl (fun a h => by cases a <;> simp_all [firsts])
  | symsOne _ ih => exact begins_of ih (by simp [nullable]) (fun a h => by cases a <;> simp_all [firsts])
  | right _ _ _ ih _ => exact begins_app ih rfl (fun a h => h)
  | inf _ _ ih _ => exact begins_app ih rfl (fun a h => h)
  | switch _ _ _ ih _ _ => simp only [List.append_assoc]; exact begins_app ih rfl (fun a h => h)
  | short _ _ _ ih _ => exact begins_app ih rfl (fun a h => by cases a <;> simp_all [firsts, stE, st2, st1])
  | incr _ ih | decr _ ih => exact begins_app ih rfl (fun a h => by cases a <;> simp_all [firsts, stE, st2, st1])
  | sub _ ih | anonStmt _ ih => exact begins_app ih rfl (fun a h => stS2_of h)
  | eqc _ _ ih _ => simp only [List.append_assoc]; exact begins_app ih rfl (fun a h => stS2_of h)
  | s3Decl _ ih => exact begins_app ih rfl (fun a h => by show (stS a || stD a) = true; rw [show stD a = true from h]; simp)
  | stmtsCons _ _ ih _ => exact begins_app ih rfl (fun a h => h)
  | logExpCons _ _ ih _ => exact begins_app ih rfl (fun a h => first_log h)
  | hdrPre => rename_i s _ _ h _ _; cases s <;> first | exact absurd rfl h | exact begins_cons rfl
  | busPre => rename_i x s _ _ h _ _; cases s <;> first | exact absurd rfl h | exact begins_cons rfl
  | busPreArgs => rename_i x s _ _ _ _ h _ _ _ _; cases s <;> first | exact absurd rfl h | exact begins_cons rfl
  | sigTuple _ _ _ ih _ | sigDecl _ _ _ ih _ | sigDeclSig _ _ _ ih _ | sigTupleInit _ _ _ _ ih _ _ =>
    try simp only [List.append_assoc]
    exact begins_app ih rfl (fun a h => by cases a <;> simp_all [firsts, stD]; all_goals (rename_i k; cases k <;> simp_all))
  | busDecl _ _ _ ih _ | busDeclSig _ _ _ ih _ =>
    exact begins_app ih rfl (fun a h => by cases a <;> simp_all [firsts, stD]; all_goals (rename_i k; cases k <;> simp_all))
  | defnsCons _ _ ih _ => exact begins_app ih rfl (fun a h => by cases a <;> simp_all [firsts]; all_goals (rename_i k; cases k <;> simp_all))
  | file =>
    rename_i t t' t2 t3 _ _ _ _ _ _ _ _ _ _ _ _
    cases hh : t ++ t' ++ t2 ++ t3 with
    | nil => exact .inl ⟨rfl, rfl⟩
    | cons a l => exact begins_cons rfl

/-- The next token does not go on with an operand. -/
def stop0 : List Tok → Prop
  | .lbr :: _ | .dot :: _ | .lpar :: _ => False
  | _ => True

/-- Nor is it an operator that binds tighter than the tier. -/
def stopT (k : Nat) : List Tok → Prop
  | .lbr :: _ | .dot :: _ | .lpar :: _ => False
  | .op o :: _ => k ≤ tierOf o
  | _ => True

/-- The next token does not go on with an expression. -/
def stopE : List Tok → Prop
  | .lbr :: _ | .dot :: _ | .lpar :: _ | .op _ :: _ | .quest :: _ => False
  | _ => True

/-- Nor with a list. -/
def stopL : List Tok → Prop
  | .comma :: _ => False
  | ts => stopE ts

theorem stop0_of {k ts} (h : stopT k ts) : stop0 ts := by unfold stop0; split <;> simp_all [stopT]
theorem stopT_of {k ts} (h : stopE ts) : stopT k ts := by unfold stopT; split <;> simp_all [stopE]
theorem stopE_of {ts} (h : stopL ts) : stopE ts := by unfold stopE; split <;> simp_all [stopL, stopE]
theorem stopL_comma {ts} (h : stopL ts) : ∀ r, ts ≠ .comma :: r := by rintro r rfl; exact h

/-- What may follow. -/
def Stop : Nt → List Tok → Prop
  | .exp, ts | .exp1, ts => stopE ts
  | .t2, ts | .t1, ts | .t0, ts | .vari, ts | .accs, ts => stop0 ts
  | .list, ts | .named, ts => stopL ts
  | .opt, ts | .anonArgs, ts => ∃ r, ts = .rpar :: r
  | _, _ => False

/-- The parser finds this tree. -/
def Goal (p : Nat) (ni : Bool) (s : Nt) (ts : List Tok) (v : Node) : Prop :=
  match s with
  | .tier k => 3 ≤ k ∧ ∀ rest v' r, stopT k rest → Ok p ni (.loop k v) rest v' r → Ok p ni (.n (.tier k)) (ts ++ rest) v' r
  | s => ∀ rest, Stop s rest → Ok p ni (.n s) (ts ++ rest) v rest

section
variable {p : Nat} {ni : Bool}

theorem loop_end {k : Nat} {v : Node} {rest : List Tok} (h : ∀ o r, rest = .op o :: r → tierOf o ≠ k) : Ok p ni (.loop k v) rest v rest :=
  ok0 fun f => by
    show pLoop f k v rest = _
    unfold pLoop
    split
    · rename_i o r; rw [if_neg (h o r rfl)]
    · rfl

theorem loop_stop {v : Node} {rest : List Tok} {k} (h : stopE rest) : Ok p ni (.loop k v) rest v rest :=
  loop_end (fun o r e => by rw [e] at h; exact h.elim)

theorem tier_plain {k : Nat} {t : List Tok} {e : Node} {rest : List Tok} (h : Goal p ni (.tier k) t e) (hs : stopE rest) :
    Ok p ni (.n (.tier k)) (t ++ rest) e rest :=
  h.2 rest e rest (stopT_of hs) (loop_stop hs)

theorem below_plain {k : Nat} {t : List Tok} {e : Node} {rest : List Tok} (hk : 3 ≤ k) (h : Goal p ni (below k) t e) (hs : stopT k rest) :
    Ok p ni (.n (below k)) (t ++ rest) e rest := by
  unfold below at h ⊢
  split at h
  · rename_i h3; rw [if_pos h3]; exact h rest (stop0_of hs)
  · rename_i h3
    rw [if_neg h3]
    refine h.2 rest e rest ?_ (loop_end ?_)
    · unfold stopT at hs ⊢
      split at hs <;> simp_all
      omega
    · rintro o r rfl
      have : k ≤ tierOf o := hs
      omega

theorem tier_ge (o : Infix) : 3 ≤ tierOf o := by cases o <;> decide

theorem accs_head {t a rest} (h : D p ni .accs t a) (hs : stop0 rest) : ∀ r, t ++ rest ≠ .lpar :: r := by
  intro r e
  cases h with
  | accsNil => rw [List.nil_append] at e; rw [e] at hs; exact hs
  | accsIdx => cases e
  | accsFld => cases e

/-- An operand read by the tiers above it. -/
theorem lift {ts : List Tok} {v : Node} {rest : List Tok} {a : Tok} {t' : List Tok} (ha : ts = a :: t') (h1 : st1 a = true)
    (h : Ok p ni (.n .t1) ts v rest) (hs : stopE rest) : Ok p ni (.n .exp) ts v rest := by
  subst ha
  have h2 : Ok p ni (.n .t2) (a :: t') v rest := ok1 h fun f hf => by
    show pT2 f (a :: t') = _
    unfold pT2
    split <;> simp_all [st1]
  have ht : ∀ k, Ok p ni (.n (.tier (k + 3))) (a :: t') v rest := by
    intro k
    induction k with
    | zero =>
      refine ok2 h2 (loop_stop (k := 3) (v := v) hs) fun f hf hl => ?_
      show pTier f 3 _ = _
      unfold pTier
      rw [show below 3 = Nt.t2 from rfl, hf]
      exact hl
    | succ k ih =>
      refine ok2 ih (loop_stop (k := k + 1 + 3) (v := v) hs) fun f hf hl => ?_
      show pTier f (k + 1 + 3) _ = _
      unfold pTier
      rw [show below (k + 1 + 3) = Nt.tier (k + 3) by unfold below; rw [if_neg (by omega)]; rfl, hf]
      exact hl
  have h12 : Ok p ni (.n .exp1) (a :: t') v rest := ok1 (ht 9) fun f hf => by
    show pExp1 f _ = _
    unfold pExp1
    simp only [hf, Option.bind_some]
    split
    · exact hs.elim
    · rfl
  exact ok1 h12 fun f hf => by
    show pExp f _ = _
    unfold pExp
    split
    · rename_i hh; cases hh; cases h1
    · exact hf

/-- After the identifier an expression begins with, there is no assignment. -/
theorem second {s ts v} (h : D p ni s ts v) :
    (s = .accs → ∀ a u, ts ≠ .assign a :: u) ∧
    ((s = .exp ∨ s = .exp1 ∨ (∃ k, s = .tier k) ∨ s = .t2 ∨ s = .t1 ∨ s = .t0 ∨ s = .vari ∨ s = .list) → ∀ x a u, ts ≠ .id x :: .assign a :: u) := by
  have key : ∀ {t u' : List Tok} {b : Tok}, (∀ x a u, t ≠ .id x :: .assign a :: u) → t ≠ [] → (∀ a, b ≠ .assign a) →
      ∀ x a u, t ++ b :: u' ≠ .id x :: .assign a :: u := by
    intro t u' b h hne hb x a u e
    match t, hne with
    | [y], _ => simp only [List.cons_append, List.nil_append, List.cons.injEq] at e; exact hb a e.2.1
    | y :: z :: w, _ =>
      simp only [List.cons_append, List.cons.injEq] at e
      exact h x a w (by rw [e.1, e.2.1])
  have ne : ∀ {s t v}, D p ni s t v → nullable s = false → t ≠ [] := by
    intro s t v h hn e
    subst e
    rcases begins h with ⟨_, h⟩ | ⟨_, _, h, _⟩
    · rw [hn] at h; cases h
    · cases h
  induction h with
  | vari _ ih =>
    refine ⟨by simp, fun _ x a u e => ?_⟩
    simp only [List.cons.injEq] at e
    exact ih.1 rfl a u e.2
  | listOne _ ih | exp12 _ ih | exp _ ih | one _ ih | two _ ih | var _ ih => exact ⟨by simp, fun _ => ih.2 (by simp)⟩
  | up _ _ _ ih => refine ⟨by simp, fun _ => ih.2 ?_⟩; unfold below; split <;> simp
  | inf h _ ih _ => exact ⟨by simp, fun _ => key (ih.2 (by simp)) (ne h rfl) (by simp)⟩
  | switch h _ _ ih _ _ => refine ⟨by simp, fun _ => ?_⟩; rw [List.append_assoc]; exact key (ih.2 (by simp)) (ne h rfl) (by simp)
  | listCons h _ ih _ => exact ⟨by simp, fun _ => key (ih.2 (by simp)) (ne h rfl) (by simp)⟩
  | pre _ _ => rename_i o _ _; cases o <;> simp [preTok]
  | _ => first | (refine ⟨?_, ?_⟩ <;> simp; done) | skip

theorem list_second {t l} (h : D p ni .list t l) (r : List Tok) : ∀ x a u, t ++ .rpar :: r ≠ .id x :: .assign a :: u := by
  intro x a u e
  have hs := (second h).2 (by simp)
  rcases begins h with ⟨_, hn⟩ | ⟨b, t', rfl, ha⟩
  · cases hn
  cases t' with
  | nil => simp only [List.cons_append, List.nil_append, List.cons.injEq] at e; exact absurd e.2.1 (by simp)
  | cons c w =>
    simp only [List.cons_append, List.cons.injEq] at e
    exact hs x a w (by rw [e.1, e.2.1])

/-- The parser finds the trees of expressions. -/
theorem expr_goal {s ts v} (h : D p ni s ts v) : Goal p ni s ts v := by
  induction h with
  | accsNil =>
    intro rest hs
    refine ok0 fun f => ?_
    show pAccs f rest = _
    unfold pAccs
    split <;> first | exact hs.elim | rfl
  | accsIdx _ _ ih ih' =>
    intro rest hs
    rename_i t t' e a _ _
    refine ok2 (ih (.rbr :: (t' ++ rest)) trivial) (ih' rest hs) fun f h1 h2 => ?_
    simp [step, pAccs, want, h1, h2]
  | accsFld _ ih =>
    intro rest hs
    refine ok1 (ih rest hs) fun f h1 => ?_
    simp [step, pAccs, want, h1]
  | vari _ ih =>
    intro rest hs
    refine ok1 (ih rest hs) fun f h1 => ?_
    simp [step, pVari, h1]
  | listOne _ ih =>
    intro rest hs
    refine ok1 (ih rest (stopE_of hs)) fun f h1 => ?_
    simp only [step, pList, h1, Option.bind_some]
    split
    · exact hs.elim
    · rfl
  | listCons _ _ ih ih' =>
    intro rest hs
    rename_i t t' e l _ _
    refine ok2 (ih (.comma :: (t' ++ rest)) trivial) (ih' rest hs) fun f h1 h2 => ?_
    simp [step, pList, h1, h2]
  | optNone =>
    rintro rest ⟨r, rfl⟩
    exact ok0 fun f => rfl
  | optSome h ih =>
    rintro rest ⟨r, rfl⟩
    refine ok1 (ih (.rpar :: r) trivial) fun f h1 => ?_
    rcases begins h with ⟨_, hn⟩ | ⟨a, t', rfl, ha⟩
    · cases hn
    show pOpt f (a :: (t' ++ _)) = _
    unfold pOpt
    split
    · rename_i hh; cases hh; cases ha
    · exact h1
  | namedOne _ ih =>
    intro rest hs
    refine ok1 (ih rest (stopE_of hs)) fun f h1 => ?_
    simp only [step, pNamed, h1, Option.bind_some, List.cons_append]
    split
    · exact hs.elim
    · rfl
  | namedCons _ _ ih ih' =>
    intro rest hs
    rename_i t t' e x a ns es _ _
    refine ok2 (ih (.comma :: (t' ++ rest)) trivial) (ih' rest hs) fun f h1 h2 => ?_
    simp [step, pNamed, h1, h2]
  | anonNone =>
    rintro rest ⟨r, rfl⟩
    exact ok0 fun f => rfl
  | anonList h ih =>
    rintro rest ⟨r, rfl⟩
    refine ok1 (ih (.rpar :: r) trivial) fun f h1 => ?_
    have hh := list_second h r
    rcases begins h with ⟨_, hn⟩ | ⟨a, t', rfl, ha⟩
    · cases hn
    show pAnon f (a :: (t' ++ _)) = _
    unfold pAnon
    split
    · rename_i hh; cases hh; cases ha
    · rename_i x b u hu; exact absurd (by simpa using hu) (hh x b u)
    · rw [show a :: (t' ++ _) = a :: t' ++ Tok.rpar :: r from rfl, h1]; rfl
  | anonNamed h ih =>
    rintro rest ⟨r, rfl⟩
    refine ok1 (ih (.rpar :: r) trivial) fun f h1 => ?_
    cases h with
    | namedOne => exact h1
    | namedCons => exact h1
  | var h ih =>
    intro rest hs
    refine ok1 (ih rest hs) fun f h1 => ?_
    cases h with
    | vari => exact h1
  | under => intro rest hs; exact ok0 fun f => rfl
  | dec => intro rest hs; exact ok0 fun f => rfl
  | hex => intro rest hs; exact ok0 fun f => rfl
  | paren _ ih =>
    intro rest hs
    refine ok1 (ih (.rpar :: rest) trivial) fun f h1 => ?_
    simp [step, pT0, closing, want, h1]
  | anon _ _ ih ih' =>
    intro rest hs
    rename_i t t' x a ns ss _ _
    refine ok2 (ih (.rpar :: .lpar :: (t' ++ .rpar :: rest)) ⟨_, rfl⟩) (ih' (.rpar :: rest) ⟨_, rfl⟩) fun f h1 h2 => ?_
    simp [step, pT1, want, h1, h2]
  | call _ ih =>
    intro rest hs
    refine ok1 (ih (.rpar :: rest) ⟨_, rfl⟩) fun f h1 => ?_
    simp only [step, pT1, List.cons_append, List.append_assoc, List.nil_append, h1, Option.bind_some, want, if_pos]
    split
    · exact hs.elim
    · rfl
  | array _ ih =>
    intro rest hs
    refine ok1 (ih (.rbr :: rest) trivial) fun f h1 => ?_
    simp [step, pT1, closing, want, h1]
  | tuple _ _ ih ih' =>
    intro rest hs
    rename_i t t' e l _ _
    have hf : Fail p ni (.n .t0) (.lpar :: (t ++ .comma :: (t' ++ .rpar :: rest))) :=
      (ih (.comma :: (t' ++ .rpar :: rest)) trivial).big.fail fun f h1 => by simp [step, pT0, closing, want, h1]
    refine ((hf.big.and (ih (.comma :: (t' ++ .rpar :: rest)) trivial).big).and (ih' (.rpar :: rest) trivial).big).ok fun f h => ?_
    obtain ⟨⟨h0, h1⟩, h2⟩ := h
    simp [step, pT1, closing, want, h0, h1, h2]
  | one h ih =>
    intro rest hs
    refine ok1 (ih rest hs) fun f h1 => ?_
    cases h with
    | var h =>
      cases h with
      | vari h =>
        rename_i t a x
        show pT1 f (.id x :: (t ++ rest)) = _
        unfold pT1
        split
        · rename_i hh; simp only [List.cons.injEq] at hh; exact absurd hh.2 (accs_head h hs _)
        · rename_i hh; cases hh
        · rename_i hh; cases hh
        · exact h1
    | under => exact h1
    | dec => exact h1
    | hex => exact h1
    | paren =>
      rename_i t h
      simp only [List.cons_append, List.append_assoc, List.nil_append] at h1 ⊢
      simp [step, pT1, h1]
  | pre _ ih =>
    intro rest hs
    refine ok1 (ih rest hs) fun f h1 => ?_
    rename_i o _
    cases o <;> simp [step, pT2, preTok, h1]
  | two h ih =>
    intro rest hs
    refine ok1 (ih rest hs) fun f h1 => ?_
    rcases begins h with ⟨_, hn⟩ | ⟨a, t', rfl, ha⟩
    · cases hn
    show pT2 f (a :: (t' ++ _)) = _
    unfold pT2
    split
    all_goals first | exact h1 | (rename_i hh; cases hh; cases ha)
  | inf _ _ ih ih' =>
    rename_i t t' a b o _ _
    refine ⟨tier_ge o, fun rest v' r hs hl => ?_⟩
    rw [List.append_assoc, List.cons_append]
    refine ih.2 _ v' r (Nat.le_refl _) ?_
    refine ok2 (below_plain (tier_ge o) ih' hs) hl fun f h1 h2 => ?_
    simp [step, pLoop, h1, h2]
  | up hk _ _ ih =>
    rename_i t e k _ _
    refine ⟨hk, fun rest v' r hs hl => ?_⟩
    refine ok2 (below_plain hk ih hs) hl fun f h1 h2 => ?_
    simp [step, pTier, h1, h2]
  | exp12 _ ih =>
    intro rest hs
    refine ok1 (tier_plain ih hs) fun f h1 => ?_
    simp only [step, pExp1, h1, Option.bind_some]
    split
    · exact hs.elim
    · rfl
  | switch _ _ _ ih ih' ih'' =>
    intro rest hs
    rename_i t t' t'' c a b _ _ _
    have h0 := ih.2 (.quest :: (t' ++ .colon :: (t'' ++ rest))) c _ trivial (loop_end (fun o r e => by cases e))
    refine ok3 h0 (tier_plain ih' (rest := .colon :: (t'' ++ rest)) trivial) (tier_plain ih'' hs) fun f h1 h2 h3 => ?_
    simp [step, pExp1, want, h1, h2, h3]
  | exp h ih =>
    intro rest hs
    refine ok1 (ih rest hs) fun f h1 => ?_
    rcases begins h with ⟨_, hn⟩ | ⟨a, t', rfl, ha⟩
    · cases hn
    show pExp f (a :: (t' ++ _)) = _
    unfold pExp
    split
    · rename_i hh; cases hh; cases ha
    · exact h1
  | par _ ih =>
    intro rest hs
    refine ok1 (ih rest hs) fun f h1 => ?_
    simp [step, pExp, h1]
  | _ => exact fun _ h => h.elim

end

end Verif.Grammar
