import Verif.GrammarStmts

/-!
# Writing trees

The reference for the trees of expressions: a way to write any tree with parentheses only where a table of precedences asks for them.
-/

set_option linter.unusedSimpArgs false
set_option linter.unusedVariables false

namespace Verif.Grammar

/-- The operators from the tightest to the loosest, as the documentation of the language has them. -/
def precedences : List (List Infix) :=
  [[.pow], [.mul, .div, .intDiv, .mod], [.add, .sub], [.shiftL, .shiftR], [.bitAnd], [.bitXor], [.bitOr],
    [.eq, .ne, .lt, .gt, .le, .ge], [.and], [.or]]

/-- The level of an operator: 3 is the tightest. -/
def prec (o : Infix) : Nat := 3 + precedences.findIdx (·.contains o)

/-- Where a tree stands: a level, or as a list of accesses, an access, a list of values, or a list of values with names. -/
inductive Mode where
  | at (k : Nat)
  | accs
  | acc
  | list
  | named (ns : List (AOp × String))

/-- The level of a tree: 1 for what needs no parentheses, then the prefix and the infix operators, 13 for `c ? a : b`, 14 for `parallel`. -/
def lvl : Node → Nat
  | .pre _ _ => 2
  | .inf o _ _ => prec o
  | .switch _ _ _ => 13
  | .par _ => 14
  | _ => 1

/-- In parentheses, if the level asks for it. -/
def wrap (k l : Nat) (ts : List Tok) : List Tok := if l ≤ k then ts else .lpar :: ts ++ [.rpar]

/-- A comma, unless at the end. -/
def sep (l : Node) (ts : List Tok) : List Tok := if l = .nil then [] else .comma :: ts

/-- A tree written down. -/
def write : Node → Mode → List Tok
  | .num v, _ => [.num v]
  | .var x acc, _ => if x = "_" ∧ acc = .nil then [.under] else .id x :: write acc .accs
  | .idx e, _ => .lbr :: write e (.at 14) ++ [.rbr]
  | .fld x, _ => [.dot, .id x]
  | .cons h t, .accs => write h .acc ++ write t .accs
  | .cons h t, .list => write h (.at 14) ++ sep t (write t .list)
  | .cons h t, .named ((a, x) :: ns) => .id x :: .assign a :: (write h (.at 14) ++ sep t (write t (.named ns)))
  | .call x as, _ => .id x :: .lpar :: (write as .list ++ [.rpar])
  | .anon x ps none ss, _ => .id x :: .lpar :: (write ps .list ++ .rpar :: .lpar :: (write ss .list ++ [.rpar]))
  | .anon x ps (some ns) ss, _ => .id x :: .lpar :: (write ps .list ++ .rpar :: .lpar :: (write ss (.named ns) ++ [.rpar]))
  | .array es, _ => .lbr :: (write es .list ++ [.rbr])
  | .tuple es, _ => .lpar :: (write es .list ++ [.rpar])
  | .pre o e, .at k => wrap k 2 (preTok o :: write e (.at 1))
  | .inf o a b, .at k => wrap k (prec o) (write a (.at (prec o)) ++ .op o :: write b (.at (prec o - 1)))
  | .switch c a b, .at k => wrap k 13 (write c (.at 12) ++ .quest :: (write a (.at 12) ++ .colon :: write b (.at 12)))
  | .par e, .at k => wrap k 14 (.kw .parallel :: write e (.at 13))
  | _, _ => []

/-- The trees of expressions: numbers below the prime, calls with lists of expressions, arrays that are not empty, tuples with two elements
or more, as many names as values. -/
def IsTree (p : Nat) : Node → Mode → Prop
  | .num v, .at _ => v < p
  | .var _ acc, .at _ => IsTree p acc .accs
  | .nil, .accs => True
  | .nil, .list => True
  | .nil, .named ns => ns = []
  | .idx e, .acc => IsTree p e (.at 14)
  | .fld _, .acc => True
  | .cons h t, .accs => IsTree p h .acc ∧ IsTree p t .accs
  | .cons h t, .list => IsTree p h (.at 14) ∧ IsTree p t .list
  | .cons h t, .named (_ :: ns) => IsTree p h (.at 14) ∧ IsTree p t (.named ns)
  | .call _ as, .at _ => IsTree p as .list
  | .anon _ ps none ss, .at _ => IsTree p ps .list ∧ IsTree p ss .list
  | .anon _ ps (some ns) ss, .at _ => ns ≠ [] ∧ IsTree p ps .list ∧ IsTree p ss (.named ns)
  | .array es, .at _ => es ≠ .nil ∧ IsTree p es .list
  | .tuple es, .at _ => (∀ e, es ≠ .cons e .nil) ∧ es ≠ .nil ∧ IsTree p es .list
  | .pre _ e, .at _ => IsTree p e (.at 14)
  | .inf _ a b, .at _ => IsTree p a (.at 14) ∧ IsTree p b (.at 14)
  | .switch c a b, .at _ => IsTree p c (.at 14) ∧ IsTree p a (.at 14) ∧ IsTree p b (.at 14)
  | .par e, .at _ => IsTree p e (.at 14)
  | _, _ => False

section
variable {p : Nat} {ni : Bool}

/-- A tree at a level. -/
def At (p : Nat) (ni : Bool) (k : Nat) (ts : List Tok) (e : Node) : Prop :=
  D p ni (match k with | 0 => .t0 | 1 => .t1 | 2 => .t2 | 13 => .exp1 | 14 => .exp | k => .tier k) ts e

theorem at_tier {k ts e} (h : 3 ≤ k) (h' : k ≤ 12) : At p ni k ts e ↔ D p ni (.tier k) ts e := by
  unfold At
  match k, h, h' with
  | 3, _, _ | 4, _, _ | 5, _, _ | 6, _, _ | 7, _, _ | 8, _, _ | 9, _, _ | 10, _, _ | 11, _, _ | 12, _, _ => exact Iff.rfl

theorem at_below {k ts e} (h : 3 ≤ k) (h' : k ≤ 12) : At p ni (k - 1) ts e ↔ D p ni (below k) ts e := by
  unfold At
  match k, h, h' with
  | 3, _, _ | 4, _, _ | 5, _, _ | 6, _, _ | 7, _, _ | 8, _, _ | 9, _, _ | 10, _, _ | 11, _, _ | 12, _, _ => exact Iff.rfl

theorem at_succ {k ts e} (hk : k < 14) (h : At p ni k ts e) : At p ni (k + 1) ts e := by
  by_cases h0 : k = 0
  · subst h0; exact D.one h
  by_cases h1 : k = 1
  · subst h1; exact D.two h
  by_cases h12 : k = 12
  · subst h12; exact D.exp12 h
  by_cases h13 : k = 13
  · subst h13; exact D.exp h
  · rw [at_tier (by omega) (by omega)]
    refine D.up (by omega) (by omega) ?_
    rw [← at_below (by omega) (by omega)]
    exact h

theorem at_le {j k ts e} (hjk : j ≤ k) (hk : k ≤ 14) (h : At p ni j ts e) : At p ni k ts e := by
  induction k with
  | zero => obtain rfl : j = 0 := by omega
            exact h
  | succ k ih =>
    by_cases hj : j = k + 1
    · subst hj; exact h
    · exact at_succ (by omega) (ih (by omega) (by omega))

theorem at_wrap {k l ts e} (hk : 1 ≤ k) (hk' : k ≤ 14) (hl : l ≤ 14) (h : At p ni l ts e) : At p ni k (wrap k l ts) e := by
  unfold wrap
  split
  · exact at_le (by assumption) hk' h
  · exact at_le (j := 0) (by omega) hk' (D.paren (at_le hl (Nat.le_refl _) h))

theorem prec_eq (o : Infix) : prec o = tierOf o := by cases o <;> decide
theorem tier_le (o : Infix) : tierOf o ≤ 12 := by cases o <;> decide

theorem opt_of {t l} (h : D p ni .list t l) : D p ni .opt t l := D.optSome h

/-- A tree written down has the tree. -/
theorem write_tree (e : Node) : 
    (∀ k, 1 ≤ k → k ≤ 14 → IsTree p e (.at k) → At p ni k (write e (.at k)) e) ∧
    (IsTree p e .accs → D p ni .accs (write e .accs) e) ∧
    (IsTree p e .acc → ∀ t a, D p ni .accs t a → D p ni .accs (write e .acc ++ t) (.cons e a)) ∧
    (IsTree p e .list → (e ≠ .nil → D p ni .list (write e .list) e) ∧ (e = .nil → write e .list = [])) ∧
    (∀ ns, IsTree p e (.named ns) → ns ≠ [] → D p ni .named (write e (.named ns)) (.args (some ns) e)) := by
  have at14 : ∀ {e k j}, IsTree p e (.at k) → IsTree p e (.at j) := by
    intro e k j h
    cases e <;> first | exact h | skip
    rename_i ns _; cases ns <;> exact h
  have at1 : ∀ {t : List Tok} {e : Node} {k : Nat}, 1 ≤ k → k ≤ 14 → D p ni .t1 t e → At p ni k t e := fun h h' hd => at_le (j := 1) h h' hd
  induction e with
  | nil =>
    refine ⟨fun _ _ _ h => h.elim, fun _ => D.accsNil, fun h => h.elim, fun _ => ⟨fun h => absurd rfl h, fun _ => rfl⟩, fun ns h h' => absurd h h'⟩
  | cons h t ihh iht =>
    refine ⟨fun _ _ _ h => h.elim, fun w => ihh.2.2.1 w.1 _ _ (iht.2.1 w.2), fun h => h.elim, fun w => ⟨fun _ => ?_, fun h => by cases h⟩, fun ns w hn => ?_⟩
    · have h1 := ihh.1 14 (by omega) (by omega) w.1
      show D p ni .list (write h (.at 14) ++ sep t (write t .list)) _
      unfold sep
      split
      · rename_i ht; subst ht; rw [List.append_nil]; exact D.listOne h1
      · rename_i ht; exact D.listCons h1 ((iht.2.2.2.1 w.2).1 ht)
    · match ns, hn with
      | (a, x) :: ns, _ =>
        have h1 := ihh.1 14 (by omega) (by omega) w.1
        show D p ni .named (.id x :: .assign a :: (write h (.at 14) ++ sep t (write t (.named ns)))) _
        unfold sep
        split
        · rename_i ht; subst ht
          have : ns = [] := w.2
          subst this
          rw [List.append_nil]; exact D.namedOne h1
        · rename_i ht
          have hne : ns ≠ [] := by
            rintro rfl
            have w2 : IsTree p t (.named []) := w.2
            cases t <;> first | exact ht rfl | exact w2.elim | skip
            rename_i ns' _; cases ns' <;> exact w2.elim
          exact D.namedCons h1 (iht.2.2.2.2 ns w.2 hne)
  | num v =>
    refine ⟨fun k hk hk' h => at1 hk hk' (D.one ?_), fun h => h.elim, fun h => h.elim, fun h => h.elim, fun _ h => h.elim⟩
    have : v % p = v := Nat.mod_eq_of_lt h
    have hd : D p ni .t0 [.num v] (.num (v % p)) := D.dec
    rw [this] at hd
    exact hd
  | var x acc ih =>
    refine ⟨fun k hk hk' h => at1 hk hk' (D.one ?_), fun h => h.elim, fun h => h.elim, fun h => h.elim, fun _ h => h.elim⟩
    show D p ni .t0 (if x = "_" ∧ acc = .nil then [.under] else .id x :: write acc .accs) _
    split
    · rename_i hh; rw [hh.1, hh.2]; exact D.under
    · exact D.var (D.vari (ih.2.1 h))
  | idx e ih =>
    refine ⟨fun _ _ _ h => h.elim, fun h => h.elim, fun h t a ht => ?_, fun h => h.elim, fun _ h => h.elim⟩
    have h1 := D.accsIdx (ih.1 14 (by omega) (by omega) h) ht
    simpa [write] using h1
  | fld x =>
    exact ⟨fun _ _ _ h => h.elim, fun h => h.elim, fun h t a ht => D.accsFld ht, fun h => h.elim, fun _ h => h.elim⟩
  | inf o a b iha ihb =>
    refine ⟨fun k hk hk' h => ?_, fun h => h.elim, fun h => h.elim, fun h => h.elim, fun _ h => h.elim⟩
    show At p ni k (wrap k (prec o) (write a (.at (prec o)) ++ .op o :: write b (.at (prec o - 1)))) _
    have g := tier_ge o
    have l := tier_le o
    rw [prec_eq]
    refine at_wrap hk hk' (by omega) ?_
    rw [at_tier g l]
    refine D.inf ?_ ?_
    · rw [← at_tier g l]; exact iha.1 _ (by omega) (by omega) (at14 h.1)
    · rw [← at_below g l]; exact ihb.1 _ (by omega) (by omega) (at14 h.2)
  | pre o a ih =>
    refine ⟨fun k hk hk' h => ?_, fun h => h.elim, fun h => h.elim, fun h => h.elim, fun _ h => h.elim⟩
    exact at_wrap hk hk' (by omega) (D.pre (ih.1 1 (by omega) (by omega) (at14 h)))
  | switch c a b ihc iha ihb =>
    refine ⟨fun k hk hk' h => ?_, fun h => h.elim, fun h => h.elim, fun h => h.elim, fun _ h => h.elim⟩
    have h1 := D.switch (ihc.1 12 (by omega) (by omega) (at14 h.1)) (iha.1 12 (by omega) (by omega) (at14 h.2.1))
      (ihb.1 12 (by omega) (by omega) (at14 h.2.2))
    refine at_wrap hk hk' (by omega) ?_
    simp only [List.append_assoc, List.cons_append] at h1
    exact h1
  | par e ih =>
    refine ⟨fun k hk hk' h => ?_, fun h => h.elim, fun h => h.elim, fun h => h.elim, fun _ h => h.elim⟩
    exact at_wrap hk hk' (by omega) (D.par (ih.1 13 (by omega) (by omega) (at14 h)))
  | call x as ih =>
    refine ⟨fun k hk hk' h => at1 hk hk' ?_, fun h => h.elim, fun h => h.elim, fun h => h.elim, fun _ h => h.elim⟩
    show D p ni .t1 (.id x :: .lpar :: (write as .list ++ [.rpar])) _
    by_cases hn : as = .nil
    · subst hn; exact D.call D.optNone
    · exact D.call (D.optSome ((ih.2.2.2.1 h).1 hn))
  | anon x ps ns ss ihp ihs =>
    refine ⟨fun k hk hk' h => at1 hk hk' ?_, fun h => ?_, fun h => ?_, fun h => ?_, fun _ h => ?_⟩
    · have opt : IsTree p ps .list → D p ni .opt (write ps .list) ps := by
        intro hp
        by_cases hn : ps = .nil
        · subst hn; exact D.optNone
        · exact D.optSome ((ihp.2.2.2.1 hp).1 hn)
      cases ns with
      | none =>
        have h2 : D p ni .anonArgs (write ss .list) (.args none ss) := by
          by_cases hn : ss = .nil
          · subst hn; exact D.anonNone
          · exact D.anonList ((ihs.2.2.2.1 h.2).1 hn)
        have := D.anon (x := x) (opt h.1) h2
        simpa [write] using this
      | some ns =>
        have h2 := D.anonNamed (ihs.2.2.2.2 ns h.2.2 h.1)
        have := D.anon (x := x) (opt h.2.1) h2
        simpa [write] using this
    all_goals (cases ns <;> exact h.elim)
  | array es ih =>
    refine ⟨fun k hk hk' h => at1 hk hk' ?_, fun h => h.elim, fun h => h.elim, fun h => h.elim, fun _ h => h.elim⟩
    exact D.array ((ih.2.2.2.1 h.2).1 h.1)
  | tuple es ih =>
    refine ⟨fun k hk hk' h => at1 hk hk' ?_, fun h => h.elim, fun h => h.elim, fun h => h.elim, fun _ h => h.elim⟩
    obtain ⟨h1, h2, h3⟩ := h
    have hd := (ih.2.2.2.1 h3).1 h2
    show D p ni .t1 (.lpar :: (write es .list ++ [.rpar])) _
    generalize write es .list = ts at hd
    cases hd with
    | listOne => exact absurd rfl (h1 _)
    | listCons ha hb => simpa using D.tuple ha hb
  | _ => exact ⟨fun _ _ _ h => h.elim, fun h => h.elim, fun h => h.elim, fun h => h.elim, fun _ h => h.elim⟩

/-- The shape of the trees of expressions. -/
def Shape (p : Nat) : Nt → Node → Prop
  | .exp, v | .exp1, v | .tier _, v | .t2, v | .t1, v | .t0, v | .vari, v => IsTree p v (.at 14)
  | .accs, v => IsTree p v .accs
  | .list, v => IsTree p v .list ∧ v ≠ .nil
  | .opt, v => IsTree p v .list
  | .named, v => ∃ ns es, v = .args (some ns) es ∧ ns ≠ [] ∧ IsTree p es (.named ns)
  | .anonArgs, v => (∃ es, v = .args none es ∧ IsTree p es .list) ∨ ∃ ns es, v = .args (some ns) es ∧ ns ≠ [] ∧ IsTree p es (.named ns)
  | _, _ => True

theorem shape_below {k v} (h : Shape p (below k) v) : IsTree p v (.at 14) := by
  unfold below at h
  by_cases hk : k = 3
  · rw [if_pos hk] at h; exact h
  · rw [if_neg hk] at h; exact h

/-- The trees of expressions are trees of expressions. -/
theorem is_tree (hp : 0 < p) {s ts v} (h : D p ni s ts v) : Shape p s v := by
  induction h with
  | accsNil => trivial
  | accsIdx _ _ ih ih' => exact ⟨ih, ih'⟩
  | accsFld _ ih => exact ⟨trivial, ih⟩
  | vari _ ih => exact ih
  | listOne _ ih => exact ⟨⟨ih, trivial⟩, by simp⟩
  | listCons _ _ ih ih' => exact ⟨⟨ih, ih'.1⟩, by simp⟩
  | optNone => trivial
  | optSome _ ih => exact ih.1
  | namedOne _ ih => exact ⟨_, _, rfl, by simp, ih, rfl⟩
  | namedCons _ _ ih ih' =>
    obtain ⟨ns, es, e, _, h⟩ := ih'
    cases e
    exact ⟨_, _, rfl, by simp, ih, h⟩
  | anonNone => exact .inl ⟨_, rfl, trivial⟩
  | anonList _ ih => exact .inl ⟨_, rfl, ih.1⟩
  | anonNamed _ ih => exact .inr ih
  | under => trivial
  | dec => exact Nat.mod_lt _ hp
  | hex => exact Nat.mod_lt _ hp
  | var _ ih | paren _ ih | one _ ih | two _ ih | exp12 _ ih | exp _ ih => exact ih
  | anon _ _ ih ih' =>
    rcases ih' with ⟨es, e, h⟩ | ⟨ns, es, e, h⟩
    · cases e; exact ⟨ih, h⟩
    · cases e; exact ⟨h.1, ih, h.2⟩
  | call _ ih => exact ih
  | array _ ih => exact ⟨ih.2, ih.1⟩
  | tuple _ _ ih ih' => exact ⟨by intro e h; cases h; exact ih'.2 rfl, by simp, ih, ih'.1⟩
  | pre _ ih | par _ ih => exact ih
  | up _ _ _ ih => exact shape_below ih
  | inf _ _ ih ih' => exact ⟨ih, shape_below ih'⟩
  | switch _ _ _ ih ih' ih'' => exact ⟨ih, ih', ih''⟩
  | _ => trivial

end

end Verif.Grammar
