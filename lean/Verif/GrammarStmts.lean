import Verif.GrammarLemmas

/-! # The parser finds the trees of statements, declarations and files -/

set_option linter.unusedSimpArgs false
set_option linter.unusedVariables false

namespace Verif.Grammar

section
variable {p : Nat} {ni : Bool}

/-- The next token is not one a declaration goes on with after a name. -/
def stopD : List Tok → Prop
  | .lpar :: _ | .id _ :: _ | .kw .input :: _ | .kw .output :: _ | .lcb :: _ => False
  | _ => True

/-- Nor one that goes on with an operand. -/
def stopO : List Tok → Prop
  | .lbr :: _ | .dot :: _ => False
  | ts => stopD ts

theorem stopD_of {ts} (h : stopO ts) : stopD ts := by unfold stopO at h; split at h <;> first | exact h.elim | exact h
theorem stop0_ofO {ts} (h : stopO ts) : stop0 ts := by
  unfold stop0
  split <;> first | trivial | exact h

theorem tags_none {u} (h : ∀ r, u ≠ .lcb :: r) : Ok p ni (.n .tags) u (.strs []) u := ok0 fun f => by
  show pTags f u = _
  unfold pTags
  split
  · exact absurd rfl (h _)
  · rfl

theorem pSig_none {u} (h : ∀ r, u ≠ .kw .input :: r) (h' : ∀ r, u ≠ .kw .output :: r) : pSig u = (.intermediate, u) := by
  unfold pSig
  split
  · exact absurd rfl (h _)
  · exact absurd rfl (h' _)
  · rfl

/-- A name and no declared symbol after it. -/
theorem bad_name {x u} (h : stopD u) : Fail p ni (.n .decl) (.id x :: u) := by
  have hl : ∀ r, u ≠ .lcb :: r := by rintro r rfl; exact h
  have hp : ∀ r, u ≠ .lpar :: r := by rintro r rfl; exact h
  have hs : pSig u = (.intermediate, u) := pSig_none (by rintro r rfl; exact h) (by rintro r rfl; exact h)
  have hb : Ok p ni (.n .busHdr) (.id x :: u) (.ty (.bus x .intermediate []) (.busCall x .nil)) u :=
    ok1 (tags_none hl) fun f h1 => by
      simp only [step, pBusHdr]
      unfold pBusId
      split
      · exact absurd rfl (hp _)
      · simp only [hs, h1, withTags, Option.bind_some]
  have hd : Ok p ni .dhdr (.id x :: u) (.ty (.bus x .intermediate []) (.busCall x .nil)) u := ok1 hb fun f h1 => h1
  have hsym : Fail p ni (.n .sym) u := big_true.fail fun f _ => by
    show pSym f u = _
    unfold pSym
    split
    · exact h.elim
    · rfl
  have hsyms : Fail p ni (.n .syms) u := hsym.big.fail fun f h1 => by show pSyms f u = _; unfold pSyms; rw [h1]; rfl
  exact (hd.big.and hsyms.big).fail fun f hf => by simp [step, pDecl, pBody, hf.1, hf.2]

/-- A name with arguments and no declared symbol after it. -/
theorem bad_call {x t a u} (ho : D p ni .opt t a) (h : stopD u ∨ ∃ r, u = .lpar :: r) : Fail p ni (.n .decl) (.id x :: .lpar :: (t ++ .rpar :: u)) := by
  have h0 := expr_goal ho (.rpar :: u) ⟨_, rfl⟩
  have hl : ∀ r, u ≠ .lcb :: r := by rintro r rfl; rcases h with h | ⟨_, h⟩ <;> cases h
  have hi : ∀ y r, u ≠ .id y :: r := by rintro y r rfl; rcases h with h | ⟨_, h⟩ <;> cases h
  have hs : pSig u = (.intermediate, u) :=
    pSig_none (by rintro r rfl; rcases h with h | ⟨_, h⟩ <;> cases h) (by rintro r rfl; rcases h with h | ⟨_, h⟩ <;> cases h)
  have hb : Ok p ni (.n .busHdr) (.id x :: .lpar :: (t ++ .rpar :: u)) (.ty (.bus x .intermediate []) (.busCall x a)) u :=
    ok2 (tags_none hl) h0 fun f h1 h2 => by simp [step, pBusHdr, pBusId, want, h2, hs, h1, withTags]
  have hd : Ok p ni .dhdr (.id x :: .lpar :: (t ++ .rpar :: u)) (.ty (.bus x .intermediate []) (.busCall x a)) u := ok1 hb fun f h1 => h1
  have hsym : Fail p ni (.n .sym) u := big_true.fail fun f _ => by
    show pSym f u = _
    unfold pSym
    split
    · exact absurd rfl (hi _ _)
    · rfl
  have hsyms : Fail p ni (.n .syms) u := hsym.big.fail fun f h1 => by show pSyms f u = _; unfold pSyms; rw [h1]; rfl
  exact (hd.big.and hsyms.big).fail fun f hf => by simp [step, pDecl, pBody, hf.1, hf.2]

/-- A token no declaration begins with. -/
theorem bad_head {a t} (h : stD a = false) : Fail p ni (.n .decl) (a :: t) := by
  have hb : Fail p ni (.n .busHdr) (a :: t) := big_true.fail fun f _ => by
    show pBusHdr f (a :: t) = _
    unfold pBusHdr
    split <;> first | rfl | (rename_i hh; cases hh; cases h)
  have hd : Fail p ni .dhdr (a :: t) := hb.big.fail fun f h1 => by
    show pDhdr f (a :: t) = _
    unfold pDhdr
    split <;> first | exact h1 | (rename_i hh; cases hh; cases h)
  exact hd.big.fail fun f h1 => by show pDecl ni f _ = _; unfold pDecl; rw [h1]; rfl

/-- An expression is not read as a declaration. -/
theorem expr_bad {s ts v} (h : D p ni s ts v) (hs : s = .exp ∨ s = .exp1 ∨ (∃ k, s = .tier k) ∨ s = .t2 ∨ s = .t1 ∨ s = .t0 ∨ s = .vari) :
    ∀ rest, stopO rest → Fail p ni (.n .decl) (ts ++ rest) := by
  induction h with
  | vari h _ =>
    intro rest hr
    refine bad_name ?_
    cases h with
    | accsNil => exact stopD_of hr
    | accsIdx => trivial
    | accsFld => trivial
  | under | dec | hex | paren | array | tuple | par => intro rest _; exact bad_head rfl
  | @pre t e o _ _ => intro rest _; cases o <;> exact bad_head rfl
  | call h _ =>
    intro rest hr
    rw [List.append_assoc]
    simpa using bad_call (x := _) h (.inl (stopD_of hr))
  | @anon t t' x a ns ss h _ _ _ =>
    intro rest hr
    have := bad_call (x := x) h (u := .lpar :: (t' ++ .rpar :: rest)) (.inr ⟨_, rfl⟩)
    simpa using this
  | exp12 _ ih | exp _ ih | one _ ih | two _ ih | var _ ih => exact ih (by simp)
  | up _ _ _ ih => refine ih ?_; unfold below; split <;> simp
  | inf _ _ ih _ => intro rest hr; rw [List.append_assoc]; exact ih (by simp) _ trivial
  | switch _ _ _ ih _ _ => intro rest hr; rw [List.append_assoc, List.append_assoc]; exact ih (by simp) _ trivial
  | _ => simp at hs

/-- A statement is not read as a declaration. -/
theorem stmt_bad {s ts v} (h : D p ni s ts v) (hs : s = .subst ∨ s = .s2 ∨ s = .s1 ∨ s = .nb ∨ s = .stmt0 ∨ s = .block) :
    ∀ rest, Fail p ni (.n .decl) (ts ++ rest) := by
  induction h with
  | assign h _ _ _ | right _ h _ _ _ => intro rest; rw [List.append_assoc]; exact expr_bad h (by simp) _ trivial
  | short _ h _ _ _ | incr h _ | decr h _ => intro rest; rw [List.append_assoc]; exact expr_bad h (by simp) _ trivial
  | anonStmt h _ => intro rest; rw [List.append_assoc]; exact expr_bad h (by simp) _ trivial
  | eqc h _ _ _ => intro rest; rw [List.append_assoc, List.append_assoc]; exact expr_bad h (by simp) _ trivial
  | block | nbnb | nbs1 | nbElse | s1Else | forDecl | forSubst | whil | ret | log | logNone | assert => intro rest; exact bad_head rfl
  | s0nb _ ih | s0s1 _ ih | s1s2 _ ih | blockStmt _ ih => exact ih (by simp)
  | sub _ ih => intro rest; rw [List.append_assoc]; exact ih (by simp) _
  | _ => simp at hs

/-- Nor an initial value. -/
def stopA : List Tok → Prop
  | .assign _ :: _ => False
  | ts => stopL ts

theorem stopL_of {ts} (h : stopA ts) : stopL ts := by unfold stopA at h; split at h <;> first | exact h.elim | exact h

/-- What may follow a non-terminal of statements, declarations and files. -/
def Stop2 : Nt → List Tok → Prop
  | .subst, ts | .tinit, ts => stopE ts
  | .block, _ | .s1, _ | .s2, _ | .params, _ | .defn, _ => True
  | .nb, ts | .stmt0, ts | .s3, ts => ∀ r, ts ≠ .kw .else_ :: r
  | .stmts, ts => ∃ r, ts = .rcb :: r
  | .logArgs, ts => stopL ts
  | .ids, ts => ∀ r, ts ≠ .comma :: r
  | .tags, ts => ∀ r, ts ≠ .lcb :: r
  | .hdr, ts => (∃ x r, ts = .id x :: r) ∨ ∃ r, ts = .lpar :: r
  | .busHdr, ts => ∃ x r, ts = .id x :: r
  | .dims, ts => ∀ r, ts ≠ .lbr :: r
  | .sym, ts => stopE ts ∧ ∀ a r, ts ≠ .assign a :: r
  | .syms, ts | .decl, ts => stopA ts
  | .oparams, ts => ∀ r, ts ≠ .lpar :: r
  | .defns, ts => ts = [] ∨ ∃ r, ts = .kw .component :: r
  | .main, ts | .file, ts => ts = []
  | .pragmas, ts => ∀ r, ts ≠ .kw .pragma :: r
  | .includes, ts => ∀ r, ts ≠ .kw .include :: r
  | _, _ => False

/-- All kinds of `if` are read in the same way. -/
def sortOf : Nt → Nt
  | .nb | .s1 => .stmt0
  | s => s

/-- The parser finds this tree. -/
def Goal2 (p : Nat) (ni : Bool) (s : Nt) (ts : List Tok) (v : Node) : Prop := ∀ rest, Stop2 s rest → Ok p ni (.n (sortOf s)) (ts ++ rest) v rest

theorem pS2_default {f : G → List Tok → Res} {a t} (h : stE a = true) : pS2 f (a :: t) =
    match f (.n .subst) (a :: t) with
    | some v => closing .semi (some v) id
    | none => (f (.n .exp) (a :: t)).bind fun (a, r) =>
      match r with
      | .eqq :: r => closing .semi (f (.n .exp) r) (.eqc a)
      | .semi :: r =>
        match a with
        | .anon x ps ns ss => some (.msub (.tuple .nil) .con (.anon x ps ns ss), r)
        | _ => none
      | _ => none := by
  unfold pS2
  split <;> first | rfl | (rename_i hh; cases hh; cases h)

theorem nonempty {s t v} (h : D p ni s t v) (hn : nullable s = false) : ∃ a t', t = a :: t' ∧ firsts s a = true := by
  rcases begins h with ⟨_, h'⟩ | h'
  · rw [hn] at h'; cases h'
  · exact h'

/-- A variable is read as an expression. -/
theorem vari_exp {t x acc rest} (h : D p ni .vari t (.var x acc)) (hs : stopE rest) :
    (∃ y u, t = .id y :: u) ∧ Ok p ni (.n .exp) (t ++ rest) (.var x acc) rest := by
  have h1 := expr_goal (D.one (D.var h)) rest (by exact stop0_of (stopT_of (k := 0) hs))
  cases h with
  | vari h => exact ⟨⟨_, _, rfl⟩, lift rfl rfl h1 hs⟩

theorem expOk {t e rest} (h : D p ni .exp t e) (hs : stopE rest) : Ok p ni (.n .exp) (t ++ rest) e rest := expr_goal h rest hs

theorem stmt_head {t v} {rest : List Tok} (h : D p ni .stmts t v) (hr : ∃ r, rest = .rcb :: r) : ∀ r, t ++ rest ≠ .kw .else_ :: r := by
  obtain ⟨r, rfl⟩ := hr
  intro r' e
  rcases begins h with ⟨rfl, _⟩ | ⟨a, t', rfl, ha⟩
  · cases e
  · simp only [List.cons_append, List.cons.injEq] at e
    rw [e.1] at ha
    cases ha

theorem pStmt_s2 {f : G → List Tok → Res} {a t} (h : stS2 a = true) : pStmt f (a :: t) = f (.n .s2) (a :: t) := by
  unfold pStmt
  split
  · rename_i hh; cases hh; cases h
  · rfl

theorem syms_cons {t l} (h : D p ni .syms t l) : ∃ v l', l = .cons v l' := by cases h <;> exact ⟨_, _, rfl⟩

theorem kinds_excl {v l} (h : kinds false (some .sig) (.cons v l) = true) : kinds true (some .con) (.cons v l) = false := by
  cases v <;> simp [kinds] at h ⊢
  rename_i a _
  cases a <;> simp_all

theorem hdr_ty {t ty b} (h : D p ni .hdr t (.ty ty b)) : (∃ s l, ty = .signal s l) ∧ b = .nil := by cases h <;> exact ⟨⟨_, _, rfl⟩, rfl⟩
theorem busHdr_ty {t ty b} (h : D p ni .busHdr t (.ty ty b)) : (∃ x s l, ty = .bus x s l) ∧ ∃ x a, b = .busCall x a := by
  cases h <;> exact ⟨⟨_, _, _, rfl⟩, _, _, rfl⟩

/-- The header of a signal is read as one. -/
theorem hdr_dhdr {t ty b u r} (h : D p ni .hdr t (.ty ty b)) (ho : Ok p ni (.n .hdr) (t ++ u) (.ty ty b) r) : Ok p ni .dhdr (t ++ u) (.ty ty b) r := by
  cases h with
  | hdr => exact ok1 ho fun f h1 => h1
  | @hdrPre s _ _ hs _ => cases s <;> first | exact absurd rfl hs | exact ok1 ho fun f h1 => h1

/-- The header of a bus is read as one. -/
theorem busHdr_dhdr {t ty b u r} (h : D p ni .busHdr t (.ty ty b)) (ho : Ok p ni (.n .busHdr) (t ++ u) (.ty ty b) r) :
    Ok p ni .dhdr (t ++ u) (.ty ty b) r := by
  cases h with
  | busHdr => exact ok1 ho fun f h1 => h1
  | busHdrArgs => exact ok1 ho fun f h1 => h1
  | @busPre _ s _ _ hs _ => cases s <;> first | exact absurd rfl hs | exact ok1 ho fun f h1 => h1
  | @busPreArgs _ s _ _ _ _ hs _ _ => cases s <;> first | exact absurd rfl hs | exact ok1 ho fun f h1 => h1

theorem syms_id {t l} {rest : List Tok} (h : D p ni .syms t l) : ∃ x r, t ++ rest = .id x :: r := by
  obtain ⟨a, t', rfl, ha⟩ := nonempty h rfl
  cases a <;> first | exact ⟨_, _, rfl⟩ | cases ha

/-- A declaration in parentheses after its header. -/
theorem body_tuple {ts t ty l rest} (hd : Ok p ni .dhdr ts (.ty ty .nil) (.lpar :: (t ++ .rpar :: rest)))
    (hsy : Ok p ni (.n .syms) (t ++ .rpar :: rest) l (.rpar :: rest)) (hk : kinds true none l = true) (hr : stopA rest) :
    Ok p ni (.n .decl) ts (.init ty (tupleDecls ni ty false l)) rest :=
  ok2 hd hsy fun f h1 h2 => by
    simp only [step, pDecl, h1, Option.bind_some, pBody, h2, want, if_pos, hk]
    split
    · exact hr.elim
    · rfl

theorem body_tuple_init {ts t t' ty l a e rest} (hd : Ok p ni .dhdr ts (.ty ty .nil) (.lpar :: (t ++ .rpar :: .assign a :: (t' ++ rest))))
    (hsy : Ok p ni (.n .syms) (t ++ .rpar :: .assign a :: (t' ++ rest)) l (.rpar :: .assign a :: (t' ++ rest))) (hk : kinds true none l = true)
    (hi : Ok p ni (.n .tinit) (.assign a :: (t' ++ rest)) (.msub .nil a e) rest) :
    Ok p ni (.n .decl) ts (.init ty (app (tupleDecls ni ty true l) (.cons (tupleSub (symVars l) a e) .nil))) rest :=
  ok3 hd hsy hi fun f h1 h2 h3 => by simp [step, pDecl, h1, pBody, h2, want, hk, h3]

theorem body_list {ts t ty b l v rest} (hd : Ok p ni .dhdr ts (.ty ty b) (t ++ rest)) (ht : D p ni .syms t l)
    (hsy : Ok p ni (.n .syms) (t ++ rest) l rest) (hf : finish ni ty b l = some v) : Ok p ni (.n .decl) ts v rest :=
  ok2 hd hsy fun f h1 h2 => by
    obtain ⟨x, r, e⟩ := syms_id (rest := rest) ht
    simp only [step, pDecl, h1, Option.bind_some]
    rw [e] at h2 ⊢
    unfold pBody
    split
    · rename_i hh; cases hh
    · rw [h2]; simp [hf]

/-- The parser finds the trees of statements, declarations and files. -/
theorem stmt_goal {s ts v} (h : D p ni s ts v) : Goal2 p ni s ts v := by
  induction h with
  | @assign t t' l r a h h' _ _ =>
    intro rest hs
    refine ok2 (expOk h (rest := .assign a :: (t' ++ rest)) trivial) (expOk h' hs) fun f h1 h2 => ?_
    simp [sortOf, step, pSubst, h1, h2]
  | @right t t' l r a ha h h' _ _ =>
    intro rest hs
    refine ok2 (expOk h (rest := .right a :: (t' ++ rest)) trivial) (expOk h' hs) fun f h1 h2 => ?_
    simp [sortOf, step, pSubst, h1, h2, ha]
  | @short t t' x acc r o ho h h' _ _ =>
    intro rest hs
    obtain ⟨⟨y, u, rfl⟩, h0⟩ := vari_exp h (rest := .opEq o :: (t' ++ rest)) trivial
    refine ok2 h0 (expOk h' hs) fun f h1 h2 => ?_
    simp only [List.cons_append] at h1
    simp [sortOf, step, pSubst, h1, h2, ho, pShort]
  | @incr t x acc h _ =>
    intro rest hs
    obtain ⟨⟨y, u, rfl⟩, h0⟩ := vari_exp h (rest := .pp :: rest) trivial
    refine ok1 h0 fun f h1 => ?_
    simp only [List.cons_append] at h1
    simp [sortOf, step, pSubst, h1, pShort]
  | @decr t x acc h _ =>
    intro rest hs
    obtain ⟨⟨y, u, rfl⟩, h0⟩ := vari_exp h (rest := .mm :: rest) trivial
    refine ok1 h0 fun f h1 => ?_
    simp only [List.cons_append] at h1
    simp [sortOf, step, pSubst, h1, pShort]
  | block _ ih =>
    intro rest hs
    refine ok1 (ih (.rcb :: rest) ⟨_, rfl⟩) fun f h1 => ?_
    simp only [sortOf] at h1
    simp [sortOf, step, pBlock, closing, want, h1]
  | s0nb _ ih => intro rest hs; exact ih rest hs
  | s0s1 _ ih => intro rest hs; exact ih rest trivial
  | @nbnb t t' c v h _ _ ih =>
    intro rest hs
    refine ok2 (expOk h (rest := .rpar :: (t' ++ rest)) trivial) (ih rest hs) fun f h1 h2 => ?_
    simp only [sortOf] at h2
    simp only [sortOf, step, pStmt, List.cons_append, List.append_assoc, h1, Option.bind_some, want, if_pos, h2]
    split
    · exact absurd rfl (hs _)
    · rfl
  | @nbs1 t t' c v h _ _ ih =>
    intro rest hs
    refine ok2 (expOk h (rest := .rpar :: (t' ++ rest)) trivial) (ih rest trivial) fun f h1 h2 => ?_
    simp only [sortOf] at h2
    simp only [sortOf, step, pStmt, List.cons_append, List.append_assoc, h1, Option.bind_some, want, if_pos, h2]
    split
    · exact absurd rfl (hs _)
    · rfl
  | @nbElse t t' t'' c v w h _ _ _ ih ih' =>
    intro rest hs
    refine ok3 (expOk h (rest := .rpar :: (t' ++ .kw .else_ :: (t'' ++ rest))) trivial) (ih (.kw .else_ :: (t'' ++ rest)) trivial) (ih' rest hs)
      fun f h1 h2 h3 => ?_
    simp only [sortOf] at h2 h3
    simp [sortOf, step, pStmt, want, h1, h2, h3]
  | @s1Else t t' t'' c v w h _ _ _ ih ih' =>
    intro rest hs
    refine ok3 (expOk h (rest := .rpar :: (t' ++ .kw .else_ :: (t'' ++ rest))) trivial) (ih (.kw .else_ :: (t'' ++ rest)) trivial) (ih' rest trivial)
      fun f h1 h2 h3 => ?_
    simp only [sortOf] at h2 h3
    simp [sortOf, step, pStmt, want, h1, h2, h3]
  | s1s2 h ih =>
    intro rest hs
    refine ok1 (ih rest trivial) fun f h1 => ?_
    obtain ⟨a, t', rfl, ha⟩ := nonempty h rfl
    exact (pStmt_s2 (t := t' ++ rest) ha).trans h1
  | @forDecl ti tc ts tb i c s b _ hc _ _ ihi _ ihs ihb =>
    intro rest hs
    refine ok4 (ihi (.semi :: (tc ++ .semi :: (ts ++ .rpar :: (tb ++ rest)))) trivial) (expOk hc (rest := .semi :: (ts ++ .rpar :: (tb ++ rest))) trivial)
      (ihs (.rpar :: (tb ++ rest)) trivial) (ihb rest trivial) fun f h1 h2 h3 h4 => ?_
    simp only [sortOf] at h1 h2 h3 h4
    simp [sortOf, step, pS2, pFor, want, h1, h2, h3, h4]
  | @forSubst ti tc ts tb i c s b hi hc _ _ ihi _ ihs ihb =>
    intro rest hs
    have hf := stmt_bad hi (by simp) (.semi :: (tc ++ .semi :: (ts ++ .rpar :: (tb ++ rest))))
    refine ((((hf.big.and (ihi (.semi :: (tc ++ .semi :: (ts ++ .rpar :: (tb ++ rest)))) trivial).big).and
      (expOk hc (rest := .semi :: (ts ++ .rpar :: (tb ++ rest))) trivial).big).and
      (ihs (.rpar :: (tb ++ rest)) trivial).big).and (ihb rest trivial).big).ok fun f h => ?_
    obtain ⟨⟨⟨⟨h0, h1⟩, h2⟩, h3⟩, h4⟩ := h
    simp only [sortOf] at h1 h2 h3 h4
    simp [sortOf, step, pS2, pFor, want, h0, h1, h2, h3, h4]
  | @whil t t' c b h _ _ ih =>
    intro rest hs
    refine ok2 (expOk h (rest := .rpar :: (t' ++ rest)) trivial) (ih rest trivial) fun f h1 h2 => ?_
    simp only [sortOf] at h2
    simp [sortOf, step, pS2, want, h1, h2]
  | ret h _ =>
    intro rest hs
    refine ok1 (expOk h (rest := .semi :: rest) trivial) fun f h1 => ?_
    simp [sortOf, step, pS2, closing, want, h1]
  | sub h ih =>
    intro rest hs
    refine ok1 (ih (.semi :: rest) trivial) fun f h1 => ?_
    obtain ⟨a, t', rfl, ha⟩ := nonempty h rfl
    simp only [sortOf, List.cons_append] at h1
    simp only [sortOf, step, List.cons_append, List.append_assoc, List.nil_append]
    rw [pS2_default ha, h1]
    simp [closing, want]
  | @eqc t t' a b h h' _ _ =>
    intro rest hs
    have h0 := expOk h (rest := .eqq :: (t' ++ .semi :: rest)) trivial
    have hf : Fail p ni (.n .subst) (t ++ .eqq :: (t' ++ .semi :: rest)) := h0.big.fail fun f h1 => by simp [step, pSubst, h1]
    refine ((hf.big.and h0.big).and (expOk h' (rest := .semi :: rest) trivial).big).ok fun f x => ?_
    obtain ⟨⟨h1, h2⟩, h3⟩ := x
    obtain ⟨a, u, rfl, ha⟩ := nonempty h rfl
    simp only [List.cons_append] at h1 h2
    simp only [sortOf, step, List.cons_append, List.append_assoc, List.nil_append]
    rw [pS2_default ha, h1, h2]
    simp [closing, want, h3]
  | @log t l h ih =>
    intro rest hs
    refine ok1 (ih (.rpar :: .semi :: rest) trivial) fun f h1 => ?_
    obtain ⟨a, u, rfl, ha⟩ := nonempty h rfl
    simp only [sortOf, List.cons_append] at h1
    simp only [sortOf, step, List.cons_append, List.append_assoc, List.nil_append]
    unfold pS2
    split <;> (rename_i hh; first | (cases hh; done) | skip)
    · simp only [List.cons.injEq, true_and] at hh; rw [hh.1] at ha; cases ha
    · simp only [List.cons.injEq, true_and] at hh; subst hh; rw [h1]; simp [want]
    · rename_i h1 h2 h3 h4; exact absurd rfl (h3 _)
  | logNone => intro rest hs; exact ok0 fun f => rfl
  | assert h _ =>
    intro rest hs
    refine ok1 (expOk h (rest := .rpar :: .semi :: rest) trivial) fun f h1 => ?_
    simp [sortOf, step, pS2, closing, want, h1]
  | @anonStmt t x ps ns ss h _ =>
    intro rest hs
    have h0 := expOk h (rest := .semi :: rest) trivial
    have hf : Fail p ni (.n .subst) (t ++ .semi :: rest) := h0.big.fail fun f h1 => by simp [step, pSubst, h1]
    refine (hf.big.and h0.big).ok fun f x => ?_
    obtain ⟨h1, h2⟩ := x
    obtain ⟨a, u, rfl, ha⟩ := nonempty h rfl
    simp only [List.cons_append] at h1 h2
    simp only [sortOf, step, List.cons_append, List.append_assoc, List.nil_append]
    rw [pS2_default ha, h1, h2]
    simp
  | blockStmt h ih =>
    intro rest hs
    refine ok1 (ih rest trivial) fun f h1 => ?_
    cases h with
    | block => exact h1
  | s3Decl _ ih =>
    intro rest hs
    refine ok1 (ih (.semi :: rest) trivial) fun f h1 => ?_
    simp only [sortOf] at h1
    simp [sortOf, step, pS3, closing, want, h1]
  | s3Stmt h ih =>
    intro rest hs
    refine ((stmt_bad h (by simp) rest).big.and (ih rest hs).big).ok fun f x => ?_
    obtain ⟨h1, h2⟩ := x
    simp only [sortOf] at h2
    simp [sortOf, step, pS3, h1, h2]
  | stmtsNil => rintro rest ⟨r, rfl⟩; exact ok0 fun f => rfl
  | @stmtsCons t t' v l h h' ih ih' =>
    intro rest hs
    refine ok2 (ih (t' ++ rest) (stmt_head h' hs)) (ih' rest hs) fun f h1 h2 => ?_
    obtain ⟨a, u, rfl, ha⟩ := nonempty h rfl
    simp only [sortOf, List.cons_append] at h1 h2
    simp only [sortOf, step, List.cons_append, List.append_assoc]
    unfold pStmts
    split
    · rename_i hh; cases hh; cases ha
    · rw [h1]; simp [h2]
  | logStr hs =>
    intro rest hr
    refine ok0 fun f => ?_
    simp only [sortOf, step, pLogArgs, List.cons_append, List.nil_append, hs, Option.bind_some]
    split
    · exact hr.elim
    · rfl
  | logExp h _ =>
    intro rest hr
    refine ok1 (expOk h (stopE_of hr)) fun f h1 => ?_
    obtain ⟨a, u, rfl, ha⟩ := nonempty h rfl
    simp only [List.cons_append] at h1
    simp only [sortOf, step, List.cons_append]
    unfold pLogArgs
    split
    · rename_i hh; cases hh; cases ha
    · rw [h1]
      simp only [Option.bind_some]
      split
      · exact hr.elim
      · rfl
  | logStrCons hs _ ih =>
    intro rest hr
    refine ok1 (ih rest hr) fun f h1 => ?_
    simp only [sortOf] at h1
    simp [sortOf, step, pLogArgs, hs, h1]
  | @logExpCons t t' e l h _ _ ih =>
    intro rest hr
    refine ok2 (expOk h (rest := .comma :: (t' ++ rest)) trivial) (ih rest hr) fun f h1 h2 => ?_
    obtain ⟨a, u, rfl, ha⟩ := nonempty h rfl
    simp only [sortOf, List.cons_append] at h1 h2
    simp only [sortOf, step, List.cons_append, List.append_assoc]
    unfold pLogArgs
    split
    · rename_i hh; cases hh; cases ha
    · rw [h1]; simp [h2]
  | idsOne =>
    intro rest hr
    refine ok0 fun f => ?_
    simp only [sortOf, step, List.cons_append, List.nil_append]
    unfold pIds
    split
    · rename_i hh; cases hh; exact absurd rfl (hr _)
    · rename_i hh; cases hh; rfl
    · rename_i hh; exact absurd rfl (hh _ _)
  | idsCons _ ih =>
    intro rest hr
    refine ok1 (ih rest hr) fun f h1 => ?_
    simp only [sortOf] at h1
    simp [sortOf, step, pIds, h1]
  | tagsNone => intro rest hr; exact tags_none hr
  | tagsSome _ ih =>
    intro rest hr
    refine ok1 (ih (.rcb :: rest) (by simp [Stop2])) fun f h1 => ?_
    simp only [sortOf] at h1
    simp [sortOf, step, pTags, closing, want, h1]
  | @hdr s t l h ih =>
    intro rest hr
    have hl : ∀ r, rest ≠ .lcb :: r := by rintro r rfl; rcases hr with ⟨_, _, h⟩ | ⟨_, h⟩ <;> cases h
    refine ok1 (ih rest hl) fun f h1 => ?_
    simp only [sortOf] at h1
    have hp : pSig (sigTok s ++ (t ++ rest)) = (s, t ++ rest) := by
      cases s with
      | input => rfl
      | output => rfl
      | intermediate =>
        refine pSig_none ?_ ?_ <;> intro r e <;> cases h with
        | tagsNone => change rest = _ at e; subst e; rcases hr with ⟨_, _, h⟩ | ⟨_, h⟩ <;> cases h
        | tagsSome => cases e
    simp [sortOf, step, pHdr, hp, h1, withTags]
  | @hdrPre s t l hs _ ih =>
    intro rest hr
    have hl : ∀ r, rest ≠ .lcb :: r := by rintro r rfl; rcases hr with ⟨_, _, h⟩ | ⟨_, h⟩ <;> cases h
    refine ok1 (ih rest hl) fun f h1 => ?_
    simp only [sortOf] at h1
    cases s with
    | intermediate => exact absurd rfl hs
    | _ => simp [sortOf, step, pHdr, sigTok, h1, withTags]
  | @busHdr x s t l h ih =>
    rintro rest ⟨y, r, rfl⟩
    refine ok1 (ih (.id y :: r) (by simp [Stop2])) fun f h1 => ?_
    simp only [sortOf] at h1
    have hp : pSig (sigTok s ++ (t ++ .id y :: r)) = (s, t ++ .id y :: r) := by
      cases s with
      | input => rfl
      | output => rfl
      | intermediate => cases h with
        | tagsNone => rfl
        | tagsSome => rfl
    have hq : pBusId f x (sigTok s ++ (t ++ .id y :: r)) =
        fun g : Node → List Tok → Res => g .nil (sigTok s ++ (t ++ .id y :: r)) := by
      funext g
      cases s with
      | input => rfl
      | output => rfl
      | intermediate => cases h with
        | tagsNone => rfl
        | tagsSome => rfl
    simp [sortOf, step, pBusHdr, hp, hq, h1, withTags]
  | @busHdrArgs x s t t' l a ha h _ ih =>
    rintro rest ⟨y, r, rfl⟩
    have h0 := expr_goal ha (.rpar :: (sigTok s ++ (t' ++ .id y :: r))) ⟨_, rfl⟩
    refine ok2 (ih (.id y :: r) (by simp [Stop2])) h0 fun f h1 h2 => ?_
    simp only [sortOf] at h1
    have hp : pSig (sigTok s ++ (t' ++ .id y :: r)) = (s, t' ++ .id y :: r) := by
      cases s with
      | input => rfl
      | output => rfl
      | intermediate => cases h with
        | tagsNone => rfl
        | tagsSome => rfl
    simp [sortOf, step, pBusHdr, pBusId, hp, want, h1, h2, withTags]
  | @busPre x s t l hs h ih =>
    rintro rest ⟨y, r, rfl⟩
    refine ok1 (ih (.id y :: r) (by simp [Stop2])) fun f h1 => ?_
    simp only [sortOf] at h1
    have hq : pBusId f x (t ++ .id y :: r) = fun g : Node → List Tok → Res => g .nil (t ++ .id y :: r) := by
      funext g
      cases h with
        | tagsNone => rfl
        | tagsSome => rfl
    cases s with
    | intermediate => exact absurd rfl hs
    | _ => simp [sortOf, step, pBusHdr, sigTok, hq, h1, withTags]
  | @busPreArgs x s t t' l a hs ha h _ ih =>
    rintro rest ⟨y, r, rfl⟩
    have h0 := expr_goal ha (.rpar :: (t' ++ .id y :: r)) ⟨_, rfl⟩
    refine ok2 (ih (.id y :: r) (by simp [Stop2])) h0 fun f h1 h2 => ?_
    simp only [sortOf] at h1
    cases s with
    | intermediate => exact absurd rfl hs
    | _ => simp [sortOf, step, pBusHdr, pBusId, want, sigTok, h1, h2, withTags]
  | dimsNil =>
    intro rest hr
    refine ok0 fun f => ?_
    show pDims f rest = _
    unfold pDims
    split
    · exact absurd rfl (hr _)
    · rfl
  | @dimsCons t t' e l h _ _ ih =>
    intro rest hr
    refine ok2 (expOk h (rest := .rbr :: (t' ++ rest)) trivial) (ih rest hr) fun f h1 h2 => ?_
    simp only [sortOf] at h2
    simp [sortOf, step, pDims, want, h1, h2]
  | sym _ ih =>
    intro rest hr
    refine ok1 (ih rest (by rintro r rfl; exact hr.1)) fun f h1 => ?_
    simp only [sortOf] at h1
    simp only [sortOf, step, pSym, List.cons_append, h1, Option.bind_some]
    split
    · exact absurd rfl (hr.2 _ _)
    · rfl
  | @symInit x t t' l e a _ h ih _ =>
    intro rest hr
    refine ok2 (ih (.assign a :: (t' ++ rest)) (by simp [Stop2])) (expOk h hr.1) fun f h1 h2 => ?_
    simp only [sortOf] at h1
    simp [sortOf, step, pSym, h1, h2]
  | symsOne _ ih =>
    intro rest hr
    refine ok1 (ih rest ⟨stopE_of (stopL_of hr), by rintro a r rfl; exact hr⟩) fun f h1 => ?_
    simp only [sortOf] at h1
    simp only [sortOf, step, pSyms, h1, Option.bind_some]
    split
    · exact False.elim hr
    · rfl
  | @symsCons t t' v l _ _ ih ih' =>
    intro rest hr
    refine ok2 (ih (.comma :: (t' ++ rest)) ⟨trivial, by simp⟩) (ih' rest hr) fun f h1 h2 => ?_
    simp only [sortOf] at h1 h2
    simp [sortOf, step, pSyms, h1, h2]
  | tinit h _ =>
    intro rest hr
    refine ok1 (expOk h hr) fun f h1 => ?_
    simp [sortOf, step, pTinit, h1]
  | @varTuple t l h hk ih =>
    intro rest hr
    simpa [sortOf] using body_tuple (ts := .kw .var :: .lpar :: (t ++ .rpar :: rest)) (ok0 fun f => rfl) (ih (.rpar :: rest) trivial) hk hr
  | @varTupleInit t t' l a e h hk hi ih ih' =>
    intro rest hr
    cases hi with
    | @tinit t' _ _ hi =>
      simpa [sortOf] using body_tuple_init (ts := .kw .var :: .lpar :: (t ++ .rpar :: .assign a :: (t' ++ rest))) (ok0 fun f => rfl)
        (ih (.rpar :: .assign a :: (t' ++ rest)) trivial) hk (ih' rest (stopE_of (stopL_of hr)))
  | @compTuple t l h hk ih =>
    intro rest hr
    simpa [sortOf] using body_tuple (ts := .kw .component :: .lpar :: (t ++ .rpar :: rest)) (ok0 fun f => rfl) (ih (.rpar :: rest) trivial) hk hr
  | @compTupleInit t t' l a e h hk hi ih ih' =>
    intro rest hr
    cases hi with
    | @tinit t' _ _ hi =>
      simpa [sortOf] using body_tuple_init (ts := .kw .component :: .lpar :: (t ++ .rpar :: .assign a :: (t' ++ rest))) (ok0 fun f => rfl)
        (ih (.rpar :: .assign a :: (t' ++ rest)) trivial) hk (ih' rest (stopE_of (stopL_of hr)))
  | @sigTuple hd t l ty hh h hk ihh ih =>
    intro rest hr
    have := body_tuple (hdr_dhdr hh (ihh (.lpar :: (t ++ .rpar :: rest)) (.inr ⟨_, rfl⟩))) (ih (.rpar :: rest) trivial) hk hr
    simpa [sortOf] using this
  | @sigTupleInit hd t t' l ty a e hh h hk hi ihh ih ih' =>
    intro rest hr
    cases hi with
    | @tinit t' _ _ hi =>
      have := body_tuple_init (hdr_dhdr hh (ihh (.lpar :: (t ++ .rpar :: .assign a :: (t' ++ rest))) (.inr ⟨_, rfl⟩)))
        (ih (.rpar :: .assign a :: (t' ++ rest)) trivial) hk (ih' rest (stopE_of (stopL_of hr)))
      simpa [sortOf] using this
  | @varDecl t l h hk ih =>
    intro rest hr
    exact body_list (t := t) (ts := .kw .var :: (t ++ rest)) (b := .nil) (ty := .var) 
      (ok0 fun f => rfl) h (ih rest hr) (by simp [finish, hk])
  | @compDecl t l h hk ih =>
    intro rest hr
    exact body_list (t := t) (ts := .kw .component :: (t ++ rest)) (b := .nil) (ty := .component) (ok0 fun f => rfl) h (ih rest hr) (by simp [finish, hk])
  | @sigDecl hd t l ty hh h hk ihh ih =>
    intro rest hr
    obtain ⟨x, r, e⟩ := syms_id (rest := rest) h
    have h0 := hdr_dhdr hh (ihh (t ++ rest) (.inl ⟨x, r, e⟩))
    rw [List.append_assoc]
    refine body_list h0 h (ih rest hr) ?_
    obtain ⟨⟨s, l, rfl⟩, _⟩ := hdr_ty hh
    simp [finish, hk]
  | @sigDeclSig hd t l ty hh h hk ihh ih =>
    intro rest hr
    obtain ⟨x, r, e⟩ := syms_id (rest := rest) h
    have h0 := hdr_dhdr hh (ihh (t ++ rest) (.inl ⟨x, r, e⟩))
    rw [List.append_assoc]
    refine body_list h0 h (ih rest hr) ?_
    obtain ⟨⟨s, l', rfl⟩, _⟩ := hdr_ty hh
    obtain ⟨v, l'', rfl⟩ := syms_cons h
    simp [finish, hk, kinds_excl hk]
  | @busDecl hd t l ty b hh h hk ihh ih =>
    intro rest hr
    have h0 := busHdr_dhdr hh (ihh (t ++ rest) (syms_id h))
    rw [List.append_assoc]
    refine body_list h0 h (ih rest hr) ?_
    obtain ⟨⟨x, s, l', rfl⟩, _⟩ := busHdr_ty hh
    simp [finish, hk]
  | @busDeclSig hd t l ty b hh h hk ihh ih =>
    intro rest hr
    have h0 := busHdr_dhdr hh (ihh (t ++ rest) (syms_id h))
    rw [List.append_assoc]
    refine body_list h0 h (ih rest hr) ?_
    obtain ⟨⟨x, s, l', rfl⟩, _⟩ := busHdr_ty hh
    obtain ⟨v, l'', rfl⟩ := syms_cons h
    simp [finish, hk, kinds_excl hk]
  | paramsNone => intro rest hr; exact ok0 fun f => rfl
  | @paramsSome t l h ih =>
    intro rest hr
    refine ok1 (ih (.rpar :: rest) (by simp [Stop2])) fun f h1 => ?_
    obtain ⟨a, u, rfl, ha⟩ := nonempty h rfl
    simp only [sortOf, List.cons_append] at h1
    simp only [sortOf, step, List.cons_append, List.append_assoc, List.nil_append]
    unfold pParams
    split
    · rename_i hh; cases hh; cases ha
    · rename_i hh; cases hh; rw [h1]; simp [closing, want]
    · rename_i hn; exact absurd rfl (hn _)
  | oparamsNone =>
    intro rest hr
    refine ok0 fun f => ?_
    show pOparams f rest = _
    unfold pOparams
    split
    · exact absurd rfl (hr _)
    · rfl
  | oparamsSome h ih =>
    intro rest hr
    refine ok1 (ih rest trivial) fun f h1 => ?_
    cases h <;> exact h1
  | @fn x t t' l b _ _ ih ih' =>
    intro rest hr
    refine ok2 (ih (t' ++ rest) trivial) (ih' rest trivial) fun f h1 h2 => ?_
    simp only [sortOf] at h1 h2
    simp [sortOf, step, pDefn, h1, h2]
  | @templ x t t' l b cu ex pa _ hb ih ih' =>
    intro rest hr
    refine ok2 (ih (t' ++ rest) (by cases hb; simp [Stop2])) (ih' rest trivial) fun f h1 h2 => ?_
    simp only [sortOf] at h1 h2
    cases cu <;> cases ex <;> cases pa <;> simp [sortOf, step, pDefn, pFlag, flag, h1, h2]
  | @busDef x t t' l b _ hb ih ih' =>
    intro rest hr
    refine ok2 (ih (t' ++ rest) (by cases hb; simp [Stop2])) (ih' rest trivial) fun f h1 h2 => ?_
    simp only [sortOf] at h1 h2
    simp [sortOf, step, pDefn, h1, h2]
  | defnsNil =>
    rintro rest (rfl | ⟨r, rfl⟩) <;> exact ok0 fun f => rfl
  | @defnsCons t t' d l h _ ih ih' =>
    intro rest hr
    refine ok2 (ih (t' ++ rest) trivial) (ih' rest hr) fun f h1 h2 => ?_
    obtain ⟨a, u, rfl, ha⟩ := nonempty h rfl
    simp only [sortOf, List.append_assoc, List.cons_append] at h1 h2 ⊢
    cases a with
    | kw k => cases k <;> first | (cases ha; done) | simp [step, pDefns, h1, h2]
    | _ => cases ha
  | mainNone => rintro rest rfl; exact ok0 fun f => rfl
  | main h _ =>
    rintro rest rfl
    refine ok1 (expOk h (rest := [.semi]) trivial) fun f h1 => ?_
    simp [sortOf, step, pMain, closing, want, h1]
  | @mainPublic t t' l e _ h ih _ =>
    rintro rest rfl
    refine ok2 (ih (.rbr :: .rcb :: .assign .var :: (t' ++ [.semi])) (by simp [Stop2])) (expOk h (rest := [.semi]) trivial) fun f h1 h2 => ?_
    simp only [sortOf] at h1
    simp [sortOf, step, pMain, closing, want, h1, h2]
  | pragmasNil =>
    intro rest hr
    refine ok0 fun f => ?_
    show pPragmas f rest = _
    unfold pPragmas
    split <;> first | exact absurd rfl (hr _) | rfl
  | pragmasVersion ha hb hc _ ih =>
    intro rest hr
    refine ok1 (ih rest hr) fun f h1 => ?_
    simp only [sortOf] at h1
    simp only [sortOf, step, pPragmas, List.cons_append]
    rw [if_pos ⟨ha, hb, hc⟩, h1]
    rfl
  | pragmasCustom _ ih =>
    intro rest hr
    refine ok1 (ih rest hr) fun f h1 => ?_
    simp only [sortOf] at h1
    simp [sortOf, step, pPragmas, h1]
  | includesNil =>
    intro rest hr
    refine ok0 fun f => ?_
    show pIncludes f rest = _
    unfold pIncludes
    split <;> first | exact absurd rfl (hr _) | rfl
  | includesCons _ ih =>
    intro rest hr
    refine ok1 (ih rest hr) fun f h1 => ?_
    simp only [sortOf] at h1
    simp [sortOf, step, pIncludes, h1]
  | @file t t' t2 t3 ps is ds m _ hi hd hm ih1 ih2 ih3 ih4 =>
    rintro rest rfl
    have e3 : t3 ++ [] = [] ∨ ∃ r, t3 ++ [] = .kw .component :: r := by
      cases hm with
      | mainNone => exact .inl rfl
      | main => exact .inr ⟨_, rfl⟩
      | mainPublic => exact .inr ⟨_, rfl⟩
    have e2 : ∀ r, t2 ++ (t3 ++ []) ≠ .kw .include :: r := by
      intro r e
      cases hd with
      | defnsNil => rw [List.nil_append] at e; rw [e] at e3; rcases e3 with h | ⟨_, h⟩ <;> cases h
      | defnsCons hd => cases hd <;> cases e
    have e1 : ∀ r, t' ++ (t2 ++ (t3 ++ [])) ≠ .kw .pragma :: r := by
      intro r e
      cases hi with
      | includesNil =>
        rw [List.nil_append] at e
        cases hd with
        | defnsNil => rw [List.nil_append] at e; rw [e] at e3; rcases e3 with h | ⟨_, h⟩ <;> cases h
        | defnsCons hd => cases hd <;> cases e
      | includesCons => cases e
    refine ok4 (ih1 _ e1) (ih2 _ e2) (ih3 _ e3) (ih4 _ rfl) fun f h1 h2 h3 h4 => ?_
    simp only [sortOf, List.append_nil] at h1 h2 h3 h4
    simp [sortOf, step, pFile, List.append_assoc, h1, h2, h3, h4]
  | _ => exact fun _ h => h.elim

end

end Verif.Grammar
