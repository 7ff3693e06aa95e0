import Verif.GrammarMore

/-!
# C86: a text has one meaning, the one of the table of operators

About the rules of `lang.lalrpop` (`Verif.Grammar.D`): whether a sequence of tokens has a tree, and which one.
-/

set_option linter.unusedSimpArgs false
set_option linter.unusedVariables false

namespace Verif.Props.Grammar

open Verif.Grammar

/-- Two sequences of tokens have the same trees. -/
def Same (p : Nat) (ni : Bool) (s : Nt) (ts ts' : List Tok) : Prop := ∀ v, D p ni s ts v ↔ D p ni s ts' v

/-- **C86.** A sequence of tokens has at most one tree: as a file, a definition, a declaration, a statement, an assignment, an expression. -/
theorem C86_unique (p : Nat) (ni : Bool) (s : Nt) (hs : s ∈ [Nt.file, .defn, .block, .decl, .s3, .stmt0, .subst, .exp]) (ts : List Tok) (v w : Node)
    (h : D p ni s ts v) (h' : D p ni s ts w) : v = w := by
  have two : ∀ {s'}, Ok p ni (.n s') (ts ++ []) v [] → Ok p ni (.n s') (ts ++ []) w [] → v = w := fun a b => (a.inj b).1
  simp only [List.mem_cons, List.not_mem_nil, or_false] at hs
  rcases hs with rfl | rfl | rfl | rfl | rfl | rfl | rfl | rfl
  · exact two (stmt_goal h [] rfl) (stmt_goal h' [] rfl)
  · exact two (stmt_goal h [] trivial) (stmt_goal h' [] trivial)
  · exact two (stmt_goal h [] trivial) (stmt_goal h' [] trivial)
  · exact two (stmt_goal h [] trivial) (stmt_goal h' [] trivial)
  · exact two (stmt_goal h [] (by simp [Stop2])) (stmt_goal h' [] (by simp [Stop2]))
  · exact two (stmt_goal h [] (by simp [Stop2])) (stmt_goal h' [] (by simp [Stop2]))
  · exact two (stmt_goal h [] trivial) (stmt_goal h' [] trivial)
  · exact two (expr_goal h [] trivial) (expr_goal h' [] trivial)

/-- **C86.** An expression written with parentheses only where the table of operators asks for them is read as itself; and every expression that
is read is of this kind. -/
theorem C86_written (p : Nat) (ni : Bool) :
    (∀ e, IsTree p e (.at 14) → ∀ v, D p ni .exp (write e (.at 14)) v ↔ v = e) ∧
    (0 < p → ∀ ts e, D p ni .exp ts e → IsTree p e (.at 14) ∧ Same p ni .exp ts (write e (.at 14))) := by
  have key : ∀ e, IsTree p e (.at 14) → ∀ v, D p ni .exp (write e (.at 14)) v ↔ v = e := by
    intro e he v
    have hd : D p ni .exp (write e (.at 14)) e := (write_tree (ni := ni) e).1 14 (by omega) (by omega) he
    exact ⟨fun h => C86_unique p ni .exp (by simp) _ _ _ h hd, fun h => h ▸ hd⟩
  refine ⟨key, fun hp ts e h => ⟨is_tree hp h, fun v => ?_⟩⟩
  rw [key e (is_tree hp h)]
  exact ⟨fun h' => C86_unique p ni .exp (by simp) _ _ _ h' h, fun h' => h' ▸ h⟩

/-- **C86.** Of two operators between three operands, the one that binds tighter is taken first, and the left one if they bind alike; an
operand may have a prefix operator. -/
theorem C86_two (p : Nat) (ni : Bool) (o o' : Infix) (t t' t'' : List Tok) (a b c : Node) (ha : D p ni .t2 t a) (hb : D p ni .t2 t' b)
    (hc : D p ni .t2 t'' c) (v : Node) :
    D p ni .exp (t ++ .op o :: (t' ++ .op o' :: t'')) v ↔
      v = if prec o ≤ prec o' then .inf o' (.inf o a b) c else .inf o a (.inf o' b c) := by
  have l2 : ∀ {k t a}, 2 ≤ k → k ≤ 14 → D p ni .t2 t a → At p ni k t a := fun h h' hd => at_le (j := 2) h h' hd
  have hg := tier_ge o
  have hg' := tier_ge o'
  have hl := tier_le o
  have hl' := tier_le o'
  have mk : ∀ {o t t' a b}, At p ni (tierOf o) t a → At p ni (tierOf o - 1) t' b → At p ni (tierOf o) (t ++ .op o :: t') (.inf o a b) := by
    intro o t t' a b h1 h2
    rw [at_tier (tier_ge o) (tier_le o)] at h1 ⊢
    rw [at_below (tier_ge o) (tier_le o)] at h2
    exact D.inf h1 h2
  have hd : D p ni .exp (t ++ .op o :: (t' ++ .op o' :: t'')) (if prec o ≤ prec o' then .inf o' (.inf o a b) c else .inf o a (.inf o' b c)) := by
    rw [prec_eq, prec_eq]
    split
    · rename_i h
      have h1 := mk (l2 (k := tierOf o) (by omega) (by omega) ha) (l2 (by omega) (by omega) hb)
      have h2 := mk (at_le h (by omega) h1) (l2 (by omega) (by omega) hc)
      have := at_le (k := 14) (by omega) (by omega) h2
      simpa [At] using this
    · rename_i h
      have h1 := mk (l2 (k := tierOf o') (by omega) (by omega) hb) (l2 (by omega) (by omega) hc)
      have h2 := mk (l2 (k := tierOf o) (by omega) (by omega) ha) (at_le (k := tierOf o - 1) (by omega) (by omega) h1)
      have := at_le (k := 14) (by omega) (by omega) h2
      simpa [At] using this
  exact ⟨fun h => C86_unique p ni .exp (by simp) _ _ _ h hd, fun h => h ▸ hd⟩

/-- **C86.** An `else` belongs to the nearest `if` that it can belong to: everywhere in the tree of a file the first branch of an `if` with `else`
does not end with an `if` without; and the body of a `while` is no `if`. -/
theorem C86_else (p : Nat) (ni : Bool) :
    (∀ ts v, D p ni .file ts v → Nearest v) ∧
    (∀ tc c td d ta a tb b, D p ni .exp tc c → D p ni .exp td d → D p ni .s2 ta a → D p ni .s2 tb b → ∀ v,
      D p ni .stmt0 (.kw .if_ :: .lpar :: (tc ++ .rpar :: .kw .if_ :: .lpar :: (td ++ .rpar :: (ta ++ .kw .else_ :: tb)))) v ↔
        v = .ift c (.ite d a b)) := by
  refine ⟨fun ts v h => near h, ?_⟩
  intro tc c td d ta a tb b hc hd ha hb v
  have h1 := D.s0nb (D.nbs1 hc (D.s1Else hd (D.s1s2 ha) (D.s1s2 hb)))
  have h2 : D p ni .stmt0 (.kw .if_ :: .lpar :: (tc ++ .rpar :: .kw .if_ :: .lpar :: (td ++ .rpar :: (ta ++ .kw .else_ :: tb))))
    (.ift c (.ite d a b)) := by simpa using h1
  exact ⟨fun h => C86_unique p ni .stmt0 (by simp) _ _ _ h h2, fun h => h ▸ h2⟩

/-- **C86.** Short forms mean what they stand for: `x += e` is `x = x + (e)` and so on, `x++` is `x += 1`, `x--` is `x -= 1`, `a --> b` is `b <-- a`,
`a ==> b` is `b <== a`, `for (i; c; s) b` is `{ i; while (c) { b s; } }`, and without `--no_init` `var x` is `var x = 0`. -/
theorem C86_short (p : Nat) (ni : Bool) :
    (∀ o t x acc t' r, shortcut o = true → D p ni .vari t (.var x acc) → D p ni .exp t' r →
      Same p ni .subst (t ++ .opEq o :: t') (t ++ .assign .var :: (t ++ .op o :: .lpar :: (t' ++ [.rpar])))) ∧
    (∀ t x acc, D p ni .vari t (.var x acc) → Same p ni .subst (t ++ [.pp]) (t ++ [.opEq .add, .num 1]) ∧
      Same p ni .subst (t ++ [.mm]) (t ++ [.opEq .sub, .num 1])) ∧
    (∀ t a t' b, D p ni .exp t a → D p ni .exp t' b → Same p ni .subst (t ++ .right .sig :: t') (t' ++ .assign .sig :: t) ∧
      Same p ni .subst (t ++ .right .con :: t') (t' ++ .assign .con :: t)) ∧
    (∀ ti i tc c ts s tb b, D p ni .decl ti i ∨ D p ni .subst ti i → D p ni .exp tc c → D p ni .subst ts s → D p ni .s2 tb b →
      Same p ni .stmt0 (.kw .for_ :: .lpar :: (ti ++ .semi :: (tc ++ .semi :: (ts ++ .rpar :: tb))))
        (.lcb :: (ti ++ .semi :: .kw .while_ :: .lpar :: (tc ++ .rpar :: .lcb :: (tb ++ (ts ++ [.semi, .rcb, .rcb])))))) ∧
    (ni = false → ∀ x, Same p ni .decl [.kw .var, .id x] [.kw .var, .id x, .assign .var, .num 0]) := by
  have same : ∀ {s ts ts' v}, s ∈ [Nt.file, .defn, .block, .decl, .s3, .stmt0, .subst, .exp] → D p ni s ts v → D p ni s ts' v → Same p ni s ts ts' := by
    intro s ts ts' v hs h h' w
    exact ⟨fun hw => C86_unique p ni s hs _ _ _ h hw ▸ h', fun hw => C86_unique p ni s hs _ _ _ h' hw ▸ h⟩
  have vexp : ∀ {t x acc k}, 1 ≤ k → k ≤ 14 → D p ni .vari t (.var x acc) → At p ni k t (.var x acc) :=
    fun h h' hd => at_le (j := 1) h h' (D.one (D.var hd))
  refine ⟨?_, ?_, ?_, ?_, ?_⟩
  · intro o t x acc t' r ho hv hr
    refine same (by simp) (D.short ho hv hr) ?_
    have g := tier_ge o
    have l := tier_le o
    have h1 : At p ni (tierOf o) (t ++ .op o :: (.lpar :: t' ++ [.rpar])) (.inf o (.var x acc) r) := by
      rw [at_tier g l]
      refine D.inf ?_ ?_
      · rw [← at_tier g l]; exact vexp (by omega) (by omega) hv
      · rw [← at_below g l]; exact at_le (j := 0) (by omega) (by omega) (D.paren hr)
    have h2 := D.assign (a := .var) (vexp (k := 14) (by omega) (by omega) hv) (at_le (k := 14) (by omega) (by omega) h1)
    simpa [mkSub, mkShort] using h2
  · intro t x acc hv
    have one : D p ni .exp [.num 1] (.num (1 % p)) := at_le (j := 0) (k := 14) (by omega) (by omega) D.dec
    exact ⟨same (by simp) (D.incr hv) (D.short (o := .add) rfl hv one), same (by simp) (D.decr hv) (D.short (o := .sub) rfl hv one)⟩
  · intro t a t' b ha hb
    exact ⟨same (by simp) (D.right (by simp) ha hb) (D.assign hb ha), same (by simp) (D.right (by simp) ha hb) (D.assign hb ha)⟩
  · intro ti i tc c ts s tb b hi hc hs hb
    have h3 : D p ni .s3 (ti ++ [.semi]) i := by
      rcases hi with hi | hi
      · exact D.s3Decl hi
      · exact D.s3Stmt (D.s0s1 (D.s1s2 (D.sub hi)))
    have hbody : D p ni .block (.lcb :: (tb ++ ((ts ++ [.semi]) ++ [])) ++ [.rcb]) (.block (.cons b (.cons s .nil))) :=
      D.block (D.stmtsCons (D.s3Stmt (D.s0s1 (D.s1s2 hb))) (D.stmtsCons (D.s3Stmt (D.s0s1 (D.s1s2 (D.sub hs)))) D.stmtsNil))
    have hw := D.whil hc (D.blockStmt hbody)
    have hall := D.s0s1 (D.s1s2 (D.blockStmt (D.block (D.stmtsCons h3 (D.stmtsCons (D.s3Stmt (D.s0s1 (D.s1s2 hw))) D.stmtsNil)))))
    have hf : D p ni .stmt0 (.kw .for_ :: .lpar :: (ti ++ .semi :: (tc ++ .semi :: (ts ++ .rpar :: tb)))) (mkFor i c s b) := by
      rcases hi with hi | hi
      · simpa using D.s0s1 (D.s1s2 (D.forDecl hi hc hs hb))
      · simpa using D.s0s1 (D.s1s2 (D.forSubst hi hc hs hb))
    refine same (by simp) hf ?_
    simpa [mkFor] using hall
  · rintro rfl x
    have h1 : D p false .decl [.kw .var, .id x] _ := D.varDecl (D.symsOne (D.sym D.dimsNil)) rfl
    have zero : D p false .exp [.num 0] (.num (0 % p)) := at_le (j := 0) (k := 14) (by omega) (by omega) D.dec
    have h2 : D p false .decl [.kw .var, .id x, .assign .var, .num 0] _ := D.varDecl (D.symsOne (D.symInit (x := x) (a := .var) D.dimsNil zero)) rfl
    refine same (by simp) h1 ?_
    simpa [splitDecl, uniform] using h2

/-- **C86.** Forms without a tree: two prefix operators in a row; a conditional expression as the last part of another one without parentheses; an
`if` as the body of a `while` without braces. -/
theorem C86_refused (p : Nat) (ni : Bool) :
    (∀ o o' t v, ¬ D p ni .exp (preTok o :: preTok o' :: t) v) ∧
    (∀ tc c ta a tb b t, D p ni (.tier 12) tc c → D p ni (.tier 12) ta a → D p ni (.tier 12) tb b → ∀ v,
      ¬ D p ni .exp (tc ++ .quest :: (ta ++ .colon :: (tb ++ .quest :: t))) v) ∧
    (∀ tc c t, D p ni .exp tc c → ∀ v, ¬ D p ni .stmt0 (.kw .while_ :: .lpar :: (tc ++ .rpar :: .kw .if_ :: t)) v) := by
  refine ⟨?_, ?_, ?_⟩
  · intro o o' t v h
    obtain ⟨a, u, e, ha⟩ := pre_second h (by simp) o _ rfl
    simp only [List.cons.injEq] at e
    rw [← e.1] at ha
    cases o' <;> cases ha
  · intro tc c ta a tb b t hc ha hb v h
    have q : ∀ r {t e}, Goal p ni (.tier 12) t e → Ok p ni (.n (.tier 12)) (t ++ .quest :: r) e (.quest :: r) := fun r _ _ g =>
      g.2 _ _ _ trivial (loop_end (fun o r e => by cases e))
    have h1 : Ok p ni (.n .exp1) (tc ++ .quest :: (ta ++ .colon :: (tb ++ .quest :: t))) (.switch c a b) (.quest :: t) :=
      ok3 (q (ta ++ .colon :: (tb ++ .quest :: t)) (expr_goal hc)) (tier_plain (expr_goal ha) (rest := .colon :: (tb ++ .quest :: t)) trivial) (q t (expr_goal hb)) fun f h1 h2 h3 => by
        simp [step, pExp1, want, h1, h2, h3]
    have h2 : Ok p ni (.n .exp) (tc ++ .quest :: (ta ++ .colon :: (tb ++ .quest :: t))) (.switch c a b) (.quest :: t) := ok1 h1 fun f hf => by
      obtain ⟨x, u, rfl, hx⟩ := nonempty hc rfl
      show pExp f (x :: (u ++ _)) = _
      unfold pExp
      split
      · rename_i hh; cases hh; cases hx
      · exact hf
    have h3 := expr_goal h [] trivial
    rw [List.append_nil] at h3
    cases (h2.inj h3).2
  · intro tc c t hc v h
    have h1 := stmt_goal h [] (by simp [Stop2])
    rw [List.append_nil] at h1
    have h2 : Fail p ni (.n .s2) (.kw .while_ :: .lpar :: (tc ++ .rpar :: .kw .if_ :: t)) :=
      ((expOk hc (rest := .rpar :: .kw .if_ :: t) trivial).big.and (s2_fail_if (t := t)).big).fail fun f hf => by
        simp [step, pS2, want, hf.1, hf.2]
    have h3 : Fail p ni (.n .stmt0) (.kw .while_ :: .lpar :: (tc ++ .rpar :: .kw .if_ :: t)) := h2.big.fail fun f hf => hf
    exact h1.not_fail h3

/-- **C86 (partial).** A text given to `log` becomes pieces of at most 230 bytes, none of them empty, which put together are the text; a text of
characters of one byte always does.  What is missing: texts with other characters, see `C86_text_violated`. -/
theorem C86_text_partial (s : String) :
    (∀ ss, splitString s = some ss → String.join ss = s ∧ ∀ x ∈ ss, x ≠ "" ∧ x.utf8ByteSize ≤ 230) ∧
    ((∀ c ∈ s.toList, c.utf8Size = 1) → (splitString s).isSome) := by
  have size : ∀ x : String, x.utf8ByteSize = (x.toList.map Char.utf8Size).sum := by
    have h : ∀ cs : List Char, (String.ofList cs).utf8ByteSize = (cs.map Char.utf8Size).sum := by
      intro cs
      induction cs with
      | nil => rfl
      | cons c cs ih =>
        have e : String.ofList (c :: cs) = String.singleton c ++ String.ofList cs := by rw [← String.toList_inj]; simp
        rw [e, String.utf8ByteSize_append, String.utf8ByteSize_singleton, ih]
        simp
    intro x
    have h := h x.toList
    rw [String.ofList_toList] at h
    exact h
  refine ⟨fun ss h => ?_, fun h => pieces_ascii _ h _ _⟩
  obtain ⟨h1, h2⟩ := pieces_spec s.toList 230 [] ss (by simp) h
  refine ⟨?_, fun x hx => ⟨(h2 x hx).1, by rw [size]; exact (h2 x hx).2⟩⟩
  rw [← String.toList_inj]
  simpa [String.toList_join, List.flatMap_def] using h1

/-- **C86 (violated).** A text whose 230th byte is inside a character has no pieces: `split_at` panics there (statement_builders.rs:71), so the
statement `log` with it has no tree.  The text is 229 letters and an `é`. -/
theorem C86_text_violated (p : Nat) (ni : Bool) : ∃ s : String, splitString s = none ∧ ∀ v, ¬ D p ni .stmt0 [.kw .log, .lpar, .str s, .rpar, .semi] v := by
  have h : splitString (String.ofList (List.replicate 229 'a' ++ ['é'])) = none := by
    have key : ∀ n cur, pieces (n + 1) cur (List.replicate n 'a' ++ ['é']) = none := by
      intro n
      induction n with
      | zero => intro cur; rw [List.replicate_zero, List.nil_append, pieces_cons]; rfl
      | succ n ih =>
        intro cur
        rw [List.replicate_succ, List.cons_append, pieces_cons, if_neg (by omega), if_pos (by rw [show 'a'.utf8Size = 1 from rfl]; omega)]
        exact ih _
    unfold splitString
    rw [String.toList_ofList]
    exact key 229 []
  refine ⟨_, h, fun v hd => ?_⟩
  generalize String.ofList (List.replicate 229 'a' ++ ['é']) = s at h hd
  have h1 : Fail p ni (.n .logArgs) [.str s, .rpar, .semi] := big_true.fail fun f _ => by simp [step, pLogArgs, h]
  have h2 : Fail p ni (.n .s2) [.kw .log, .lpar, .str s, .rpar, .semi] := h1.big.fail fun f hf => by simp [step, pS2, hf]
  have h3 : Fail p ni (.n .stmt0) [.kw .log, .lpar, .str s, .rpar, .semi] := h2.big.fail fun f hf => hf
  exact Ok.not_fail (stmt_goal hd [] (by simp [Stop2])) h3

/-! ## Cases -/

/-- `-a + b * 2 ** 3` below 101. -/
example : D 101 false .exp [.op .sub, .id "a", .op .add, .id "b", .op .mul, .num 2, .op .pow, .num 3]
    (.inf .add (.pre .sub (.var "a" .nil)) (.inf .mul (.var "b" .nil) (.inf .pow (.num 2) (.num 3)))) := by
  have h := ((C86_written 101 false).1 (.inf .add (.pre .sub (.var "a" .nil)) (.inf .mul (.var "b" .nil) (.inf .pow (.num 2) (.num 3))))
    (by simp [IsTree]) _).2 rfl
  exact h

/-- `(a + b) * c`, written from its tree. -/
example : write (.inf .mul (.inf .add (.var "a" .nil) (.var "b" .nil)) (.var "c" .nil)) (.at 14) =
    [.lpar, .id "a", .op .add, .id "b", .rpar, .op .mul, .id "c"] := by decide

/-- `a - b - c` is `(a - b) - c`; `a == b | c` is `a == (b | c)`. -/
example (v : Node) : D 101 false .exp [.id "a", .op .sub, .id "b", .op .sub, .id "c"] v ↔
    v = .inf .sub (.inf .sub (.var "a" .nil) (.var "b" .nil)) (.var "c" .nil) := by
  have x : ∀ y, D 101 false .t2 [.id y] (.var y .nil) := fun y => D.two (D.one (D.var (D.vari D.accsNil)))
  exact C86_two 101 false .sub .sub [.id "a"] [.id "b"] [.id "c"] _ _ _ (x _) (x _) (x _) v

example (v : Node) : D 101 false .exp [.id "a", .op .eq, .id "b", .op .bitOr, .id "c"] v ↔
    v = .inf .eq (.var "a" .nil) (.inf .bitOr (.var "b" .nil) (.var "c" .nil)) := by
  have x : ∀ y, D 101 false .t2 [.id y] (.var y .nil) := fun y => D.two (D.one (D.var (D.vari D.accsNil)))
  exact C86_two 101 false .eq .bitOr [.id "a"] [.id "b"] [.id "c"] _ _ _ (x _) (x _) (x _) v

/-- The tokens of a file: `template A() { signal input a; signal output b; if (1) if (a) b <== a * a; else b <== 2; } component main = A();` -/
def exFile : List Tok :=
  [.kw .template, .id "A", .lpar, .rpar, .lcb, .kw .signal, .kw .input, .id "a", .semi, .kw .signal, .kw .output, .id "b", .semi,
    .kw .if_, .lpar, .num 1, .rpar, .kw .if_, .lpar, .id "a", .rpar, .id "b", .assign .con, .id "a", .op .mul, .id "a", .semi,
    .kw .else_, .id "b", .assign .con, .num 2, .semi, .rcb, .kw .component, .kw .main, .assign .var, .id "A", .lpar, .rpar, .semi]

/-- Its tree. -/
def exTree : Node :=
  .file .nil []
    (.cons (.templ "A" [] (.block
      (.cons (.init (.signal .input []) (.cons (.decl (.signal .input []) "a" .nil) .nil))
      (.cons (.init (.signal .output []) (.cons (.decl (.signal .output []) "b" .nil) .nil))
      (.cons (.ift (.num 1) (.ite (.var "a" .nil) (.sub "b" .nil .con (.inf .mul (.var "a" .nil) (.var "a" .nil))) (.sub "b" .nil .con (.num 2))))
      .nil)))) false false false) .nil)
    (.main [] (.call "A" .nil))

/-- It has this tree, and only this one. -/
theorem exFile_tree (v : Node) : D 101 false .file exFile v ↔ v = exTree := by
  have ex : ∀ {e}, IsTree 101 e (.at 14) → D 101 false .exp (write e (.at 14)) e := fun h => ((C86_written 101 false).1 _ h _).2 rfl
  have h1 := D.sigDecl (p := 101) (ni := false) (D.hdr (s := .input) D.tagsNone) (D.symsOne (D.sym (x := "a") D.dimsNil)) rfl
  have h2 := D.sigDecl (p := 101) (ni := false) (D.hdr (s := .output) D.tagsNone) (D.symsOne (D.sym (x := "b") D.dimsNil)) rfl
  have a1 := D.sub (D.assign (a := .con) (ex (e := .var "b" .nil) trivial) (ex (e := .inf .mul (.var "a" .nil) (.var "a" .nil)) ⟨trivial, trivial⟩))
  have a2 := D.sub (D.assign (a := .con) (ex (e := .var "b" .nil) trivial) (ex (e := .num 2) (by simp [IsTree])))
  have hi := ((C86_else 101 false).2 _ _ _ _ _ _ _ _ (ex (e := .num 1) (by simp [IsTree])) (ex (e := .var "a" .nil) trivial) a1 a2 _).2 rfl
  have hb := D.block (D.stmtsCons (D.s3Decl h1) (D.stmtsCons (D.s3Decl h2) (D.stmtsCons (D.s3Stmt hi) D.stmtsNil)))
  have ht := D.templ (x := "A") (cu := false) (ex := false) (pa := false) (D.oparamsSome D.paramsNone) hb
  have hm := D.main (ex (e := .call "A" .nil) trivial)
  have hf := D.file D.pragmasNil D.includesNil (D.defnsCons ht D.defnsNil) hm
  have hd : D 101 false .file exFile exTree := hf
  exact ⟨fun h => C86_unique 101 false .file (by simp) _ _ _ h hd, fun h => h ▸ hd⟩

example : Nearest exTree := (C86_else 101 false).1 _ _ ((exFile_tree _).2 rfl)

/-- `i += 2` and `i = i + (2)`. -/
example : Same 101 false .subst [.id "i", .opEq .add, .num 2] [.id "i", .assign .var, .id "i", .op .add, .lpar, .num 2, .rpar] :=
  (C86_short 101 false).1 .add [.id "i"] "i" .nil [.num 2] (.num 2) rfl (D.vari D.accsNil) (((C86_written 101 false).1 (.num 2) (by simp [IsTree]) _).2 rfl)

/-- `- ! x` has no tree. -/
example (v : Node) : ¬ D 101 false .exp [.op .sub, .bang, .id "x"] v := (C86_refused 101 false).1 .sub .not _ v

/-- A text of 233 letters: two pieces. -/
example : splitString (String.ofList (List.replicate 233 'a')) = some [String.ofList (List.replicate 230 'a'), "aaa"] := by decide +kernel

end Verif.Props.Grammar
