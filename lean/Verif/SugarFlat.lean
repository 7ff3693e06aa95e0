import Verif.SugarMain

set_option linter.unusedSimpArgs false
set_option linter.unusedVariables false
set_option linter.unusedSectionVars false

namespace Verif.Sugar

variable {K : Type} {S : Sem K} {mixed : Name → Bool}

/-! ## What the translation accepts -/

mutual
/-- compiler/src/intermediate_representation/translate.rs:806-828 `translate_expression`: no inline array and no conditional
expression. -/
def flatE : Expr K → Bool
  | .num _ => true
  | .var _ _ acc => flatAs acc
  | .infix _ l r => flatE l && flatE r
  | .pre _ e => flatE e
  | .call _ _ args => flatEs args
  | .switch _ _ _ _ => false
  | .arr _ _ => false
  | .uni _ _ _ => false

/-- translate.rs:1817-1835 `translate_call_arguments`. -/
def flatEs : List (Expr K) → Bool
  | [] => true
  | e :: es => flatE e && flatEs es

/-- The indices of a variable. -/
def flatAs : List (Acc K) → Bool
  | [] => true
  | a :: as => flatA a && flatAs as

/-- One. -/
def flatA : Acc K → Bool
  | .idx e => flatE e
  | .fld _ => true
end

/-- A call? -/
def isCall : Expr K → Bool
  | .call _ _ _ => true
  | _ => false

/-- An inline array or a conditional expression? -/
def isLit (e : Expr K) : Bool := isSugar e && !isCall e

mutual
/-- translate.rs:513-535 `translate_statement`: no initialisation block; `return` of a call is refused by `get_expression_size`
(translate.rs:1839-1858, 789). -/
def flatS : Stmt K → Bool
  | .decl _ _ => true
  | .assign _ acc e => flatAs acc && flatE e
  | .eqc l r => flatE l && flatE r
  | .log args => flatEs args
  | .assert e => flatE e
  | .ret e => flatE e && !isCall e
  | .ite c a b => flatE c && flatS a && flatS b
  | .loop c s => flatE c && flatS s
  | .block ss => flatL ss
  | .init _ => false

/-- A list. -/
def flatL : List (Stmt K) → Bool
  | [] => true
  | s :: ss => flatS s && flatL ss
end

theorem flatL_all : ∀ ss : List (Stmt K), flatL ss = ss.all flatS
  | [] => rfl
  | s :: ss => by simp [flatL, flatL_all ss]

theorem flatEs_all : ∀ es : List (Expr K), flatEs es = es.all flatE
  | [] => rfl
  | e :: es => by simp [flatEs, flatEs_all es]

/-! ## Sources for which the pass reaches it -/

mutual
/-- The conditions of conditional expressions, which the pass leaves alone, are as the translation wants them. -/
def neatE : Expr K → Bool
  | .num _ => true
  | .var _ _ acc => neatAs acc
  | .infix _ l r => neatE l && neatE r
  | .pre _ e => neatE e
  | .call _ _ args => neatEs args
  | .switch _ c a b => flatE c && neatE a && neatE b
  | .arr _ vs => neatEs vs
  | .uni _ v _ => neatE v

/-- A list. -/
def neatEs : List (Expr K) → Bool
  | [] => true
  | e :: es => neatE e && neatEs es

/-- Accesses. -/
def neatAs : List (Acc K) → Bool
  | [] => true
  | a :: as => neatA a && neatAs as

/-- One access. -/
def neatA : Acc K → Bool
  | .idx e => neatE e
  | .fld _ => true
end

/-- Sides of an equality. -/
def neatEq : Expr K → Expr K → Bool
  | .arr _ _, .arr _ _ => true
  | .arr _ _, .var _ _ _ => true
  | .var _ _ _, .arr _ _ => true
  | l, r => !isLit l && !isLit r

mutual
/-- `top` tells whether the statement is one of a block: outside, assignments of inline arrays and conditional expressions and
`return` of a call are left as they are. -/
def neatS : Bool → Stmt K → Bool
  | _, .decl _ _ => true
  | top, .assign _ acc e => neatAs acc && neatE e && (top || !isLit e)
  | top, .eqc l r => neatE l && neatE r && (if top then neatEq l r else !isLit l && !isLit r)
  | _, .log args => neatEs args && args.all (fun e => !isLit e)
  | _, .assert e => neatE e && !isLit e
  | top, .ret e => neatE e && (top || !isSugar e)
  | _, .ite c a b => neatE c && neatS false a && neatS false b
  | _, .loop c s => neatE c && neatS false s
  | _, .block ss => neatL ss
  | _, .init _ => false

/-- A list. -/
def neatL : List (Stmt K) → Bool
  | [] => true
  | .init is :: ss => neatL is && neatL ss
  | s :: ss => neatS true s && neatL ss
end

/-! ## Expressions -/

/-- The expression or its immediate parts are as the translation wants them. -/
def nearE : Expr K → Bool
  | .switch _ c a b => flatE c && flatE a && flatE b
  | .arr _ vs => flatEs vs
  | .uni _ v _ => flatE v
  | e => flatE e

theorem near_flat {e : Expr K} (h : nearE e = true) (hl : isLit e = false) : flatE e = true := by
  cases e <;> simp_all [nearE, isLit, isSugar, isCall]

/-- A statement for a temporary. -/
def nearI (s : Stmt K) : Bool :=
  match s with
  | .decl _ _ => true
  | .assign _ acc e => flatAs acc && nearE e
  | _ => false

theorem newInit_near {n : Nat} {e : Expr K} (h : nearE e = true) : (newInit n e).all nearI = true := by
  simp [newInit, nearI, h, flatAs]

theorem filter1_flat (e : Expr K) (n : Nat) (h : nearE e = true) :
    (filter1 e n).1.all nearI = true ∧ flatE (filter1 e n).2.1 = true := by
  unfold filter1
  split
  · exact ⟨newInit_near h, rfl⟩
  · rename_i hs
    exact ⟨rfl, near_flat h (by simp [isLit, hs])⟩

theorem filter_flat : ∀ (es : List (Expr K)) (n : Nat), es.all nearE = true →
    (filter es n).1.all nearI = true ∧ flatEs (filter es n).2.1 = true
  | [], n, _ => ⟨rfl, rfl⟩
  | e :: es, n, h => by
    simp only [List.all_cons, Bool.and_eq_true] at h
    unfold filter
    split
    · obtain ⟨a, b⟩ := filter_flat es (n + 1) h.2
      refine ⟨?_, ?_⟩
      · simp only [List.all_append, newInit_near h.1, a, Bool.and_self]
      · simp only [flatEs, b, Bool.and_true]; rfl
    · rename_i hs
      obtain ⟨a, b⟩ := filter_flat es n h.2
      exact ⟨a, by simp only [flatEs, b, near_flat h.1 (by simp [isLit, hs]), Bool.and_self]⟩

theorem fixPow_flat {op : Op} {l r : Expr K} (h : flatE r = true) : flatE (fixPow S op l r) = true := by
  unfold fixPow
  split
  · split
    · simpa [flatE] using h
    · exact h
  · split
    · simp [flatE]
    · exact h
  · exact h

mutual
theorem extE_flat (i : Bool) (e : Expr K) (n : Nat) (h : neatE e = true) :
    (extE S mixed i e n).1.all nearI = true ∧ nearE (extE S mixed i e n).2.1 = true := by
  match e with
  | .num _ => exact ⟨rfl, rfl⟩
  | .var d x acc =>
    obtain ⟨a, b⟩ := extAs_flat (i || mixed x) acc n h
    simp only [extE]
    split
    · refine ⟨?_, rfl⟩
      rw [List.all_append, a, newInit_near (by exact b)]; rfl
    · exact ⟨a, b⟩
  | .infix op l r =>
    simp only [neatE, Bool.and_eq_true] at h
    obtain ⟨a1, a2⟩ := extE_flat i l n h.1
    obtain ⟨b1, b2⟩ := extE_flat i r (extE S mixed i l n).2.2 h.2
    obtain ⟨c1, c2⟩ := filter1_flat (extE S mixed i l n).2.1 (extE S mixed i r (extE S mixed i l n).2.2).2.2 a2
    obtain ⟨d1, d2⟩ := filter1_flat (extE S mixed i r (extE S mixed i l n).2.2).2.1
      (filter1 (extE S mixed i l n).2.1 (extE S mixed i r (extE S mixed i l n).2.2).2.2).2.2 b2
    simp only [extE]
    refine ⟨by simp only [List.all_append, a1, b1, c1, d1, Bool.and_self], ?_⟩
    simp only [nearE, flatE, c2, fixPow_flat d2, Bool.and_self]
  | .pre op e =>
    obtain ⟨a1, a2⟩ := extE_flat i e n h
    obtain ⟨c1, c2⟩ := filter1_flat (extE S mixed i e n).2.1 (extE S mixed i e n).2.2 a2
    simp only [extE]
    exact ⟨by simp only [List.all_append, a1, c1, Bool.and_self], by simp only [nearE, flatE, c2]⟩
  | .call d f args =>
    obtain ⟨a1, a2⟩ := extEs_flat i args n h
    obtain ⟨c1, c2⟩ := filter_flat (extEs S mixed i args n).2.1 (extEs S mixed i args n).2.2 a2
    simp only [extE]
    exact ⟨by simp only [List.all_append, a1, c1, Bool.and_self], by simp only [nearE, flatE, c2]⟩
  | .switch d c l r =>
    simp only [neatE, Bool.and_eq_true] at h
    obtain ⟨a1, a2⟩ := extE_flat i l n h.1.2
    obtain ⟨b1, b2⟩ := extE_flat i r (extE S mixed i l n).2.2 h.2
    obtain ⟨c1, c2⟩ := filter1_flat (extE S mixed i l n).2.1 (extE S mixed i r (extE S mixed i l n).2.2).2.2 a2
    obtain ⟨d1, d2⟩ := filter1_flat (extE S mixed i r (extE S mixed i l n).2.2).2.1
      (filter1 (extE S mixed i l n).2.1 (extE S mixed i r (extE S mixed i l n).2.2).2.2).2.2 b2
    simp only [extE]
    refine ⟨by simp only [List.all_append, a1, b1, c1, d1, Bool.and_self], ?_⟩
    simp only [nearE, h.1.1, c2, d2, Bool.and_self]
  | .arr d args =>
    obtain ⟨a1, a2⟩ := extEs_flat i args n h
    obtain ⟨c1, c2⟩ := filter_flat (extEs S mixed i args n).2.1 (extEs S mixed i args n).2.2 a2
    simp only [extE]
    exact ⟨by simp only [List.all_append, a1, c1, Bool.and_self], by simp only [nearE, c2]⟩
  | .uni d e k =>
    obtain ⟨a1, a2⟩ := extE_flat i e n h
    obtain ⟨c1, c2⟩ := filter1_flat (extE S mixed i e n).2.1 (extE S mixed i e n).2.2 a2
    simp only [extE]
    exact ⟨by simp only [List.all_append, a1, c1, Bool.and_self], by simp only [nearE, c2]⟩

theorem extEs_flat (i : Bool) (es : List (Expr K)) (n : Nat) (h : neatEs es = true) :
    (extEs S mixed i es n).1.all nearI = true ∧ (extEs S mixed i es n).2.1.all nearE = true := by
  match es with
  | [] => exact ⟨rfl, rfl⟩
  | e :: es =>
    simp only [neatEs, Bool.and_eq_true] at h
    obtain ⟨a1, a2⟩ := extE_flat i e n h.1
    obtain ⟨b1, b2⟩ := extEs_flat i es (extE S mixed i e n).2.2 h.2
    simp only [extEs, List.all_append, List.all_cons, a1, a2, b1, b2, Bool.and_self, and_self]

theorem extAs_flat (i : Bool) (es : List (Acc K)) (n : Nat) (h : neatAs es = true) :
    (extAs S mixed i es n).1.all nearI = true ∧ flatAs (extAs S mixed i es n).2.1 = true := by
  match es with
  | [] => exact ⟨rfl, rfl⟩
  | e :: es =>
    simp only [neatAs, Bool.and_eq_true] at h
    obtain ⟨a1, a2⟩ := extA_flat i e n h.1
    obtain ⟨b1, b2⟩ := extAs_flat i es (extA S mixed i e n).2.2 h.2
    simp only [extAs, List.all_append, flatAs, a1, a2, b1, b2, Bool.and_self, and_self]

theorem extA_flat (i : Bool) (a : Acc K) (n : Nat) (h : neatA a = true) :
    (extA S mixed i a n).1.all nearI = true ∧ flatA (extA S mixed i a n).2.1 = true := by
  match a with
  | .fld _ => exact ⟨rfl, rfl⟩
  | .idx e =>
    obtain ⟨a1, a2⟩ := extE_flat i e n h
    obtain ⟨c1, c2⟩ := filter1_flat (extE S mixed i e n).2.1 (extE S mixed i e n).2.2 a2
    simp only [extA]
    exact ⟨by simp only [List.all_append, a1, c1, Bool.and_self], by simp only [flatA, c2]⟩
end

theorem isLit_ext (i : Bool) (e : Expr K) (n : Nat) (h : isLit e = false) : isLit (extE S mixed i e n).2.1 = false := by
  cases e with
  | var d x acc =>
    by_cases hb : (i && mixed x) = true
    · simp only [extE, if_pos hb]; rfl
    · simp only [extE, if_neg hb]; rfl
  | switch _ _ _ _ => simp [isLit, isSugar, isCall] at h
  | arr _ _ => simp [isLit, isSugar, isCall] at h
  | uni _ _ _ => simp [isLit, isSugar, isCall] at h
  | _ => rfl

theorem extE_flat' (i : Bool) (e : Expr K) (n : Nat) (h : neatE e = true) (hl : isLit e = false) :
    flatE (extE S mixed i e n).2.1 = true :=
  near_flat (extE_flat i e n h).2 (isLit_ext i e n hl)

theorem extEs_flat' (i : Bool) : ∀ (es : List (Expr K)) (n : Nat), neatEs es = true → es.all (fun e => !isLit e) = true →
    flatEs (extEs S mixed i es n).2.1 = true
  | [], _, _, _ => rfl
  | e :: es, n, h, hl => by
    simp only [neatEs, List.all_cons, Bool.and_eq_true, Bool.not_eq_true'] at h hl
    simp only [extEs, flatEs, extE_flat' (S := S) (mixed := mixed) i e n h.1 hl.1, extEs_flat' i es _ h.2 hl.2, Bool.and_self]

/-! ## Splitting -/

theorem flatAs_snoc (i : Nat) : ∀ acc : List (Acc K), flatAs (acc ++ [.fld i]) = flatAs acc
  | [] => rfl
  | a :: acc => by simp [flatAs, flatAs_snoc i acc]

theorem elems_flat (x : Name) (acc : List (Acc K)) (ha : flatAs acc = true) : ∀ (vs : List (Expr K)) (i : Nat), flatEs vs = true →
    (elems x acc i vs).all flatS = true
  | [], _, _ => rfl
  | v :: vs, i, h => by
    simp only [flatEs, Bool.and_eq_true] at h
    simp [elems, flatS, flatAs_snoc, ha, h.1, elems_flat x acc ha vs (i + 1) h.2]

theorem flatEs_replicate {v : Expr K} (h : flatE v = true) : ∀ n : Nat, flatEs (List.replicate n v) = true
  | 0 => rfl
  | n + 1 => by simp [List.replicate_succ, flatEs, h, flatEs_replicate h n]

theorem splitSub_flat (x : Name) (acc : List (Acc K)) (e : Expr K) (ha : flatAs acc = true) (h : nearE e = true) :
    (splitSub (.assign x acc e)).all flatS = true := by
  cases e with
  | switch d c a b =>
    simp only [nearE, Bool.and_eq_true] at h
    simp [splitSub, flatS, flatL, ha, h.1.1, h.1.2, h.2]
  | arr d vs => exact elems_flat x acc ha vs 0 h
  | uni d v n => exact elems_flat x acc ha _ 0 (flatEs_replicate h n)
  | num _ => simp only [splitSub, List.all_cons, List.all_nil, flatS, ha, Bool.true_and, Bool.and_true]; exact h
  | var _ _ _ => simp only [splitSub, List.all_cons, List.all_nil, flatS, ha, Bool.true_and, Bool.and_true]; exact h
  | «infix» _ _ _ => simp only [splitSub, List.all_cons, List.all_nil, flatS, ha, Bool.true_and, Bool.and_true]; exact h
  | pre _ _ => simp only [splitSub, List.all_cons, List.all_nil, flatS, ha, Bool.true_and, Bool.and_true]; exact h
  | call _ _ _ => simp only [splitSub, List.all_cons, List.all_nil, flatS, ha, Bool.true_and, Bool.and_true]; exact h

theorem eqElems_flat : ∀ (vs ws : List (Expr K)), flatEs vs = true → flatEs ws = true → (eqElems vs ws).all flatS = true
  | [], _, _, _ => rfl
  | _ :: _, [], _, _ => rfl
  | v :: vs, w :: ws, h, k => by
    simp only [flatEs, Bool.and_eq_true] at h k
    simp [eqElems, flatS, h.1, k.1, eqElems_flat vs ws h.2 k.2]

theorem eqVars_flat (d : List Nat) (x : Name) (acc : List (Acc K)) (ha : flatAs acc = true) : ∀ (vs : List (Expr K)) (i : Nat),
    flatEs vs = true → (eqVars d x acc i vs).all flatS = true
  | [], _, _ => rfl
  | v :: vs, i, h => by
    simp only [flatEs, Bool.and_eq_true] at h
    simp [eqVars, flatS, flatE, flatAs_snoc, ha, h.1, eqVars_flat d x acc ha vs (i + 1) h.2]

theorem eqElems_noret : ∀ (vs ws : List (Expr K)), ∀ s ∈ eqElems vs ws, isRet s = false
  | [], _, s, h => by simp [eqElems] at h
  | _ :: _, [], s, h => by simp [eqElems] at h
  | v :: vs, w :: ws, s, h => by
    simp only [eqElems, List.mem_cons] at h
    rcases h with rfl | h
    · rfl
    · exact eqElems_noret vs ws s h

theorem eqVars_noret (d : List Nat) (x : Name) (acc : List (Acc K)) : ∀ (vs : List (Expr K)) (i : Nat), ∀ s ∈ eqVars d x acc i vs, isRet s = false
  | [], _, s, h => by simp [eqVars] at h
  | v :: vs, i, s, h => by
    simp only [eqVars, List.mem_cons] at h
    rcases h with rfl | h
    · rfl
    · exact eqVars_noret d x acc vs (i + 1) s h

theorem splitEq_noret (l r : Expr K) : ∀ s ∈ splitEq (.eqc l r), isRet s = false := by
  intro s hs
  have key : ∀ vs (e : Expr K), ∀ s ∈ eqArr vs e, isRet s = false := by
    intro vs e
    cases e <;> simp only [eqArr] <;> first | exact eqElems_noret _ _ | exact eqVars_noret _ _ _ _ _ | simp
  cases l with
  | arr d vs => exact key vs r s hs
  | _ =>
    cases r with
    | arr d vs => simp only [splitEq] at hs; exact key vs _ s hs
    | _ =>
      simp only [splitEq, List.mem_cons, List.not_mem_nil, or_false] at hs
      rw [hs]; rfl

theorem finish_eqc (l r : Expr K) (k : Nat) : finish [.eqc l r] k = splitEq (.eqc l r) := by
  simp only [finish, List.flatMap_cons, List.flatMap_nil, List.append_nil, splitSub]
  exact splitRets_id _ _ (splitEq_noret l r)

theorem finish_inits_flat : ∀ (is : List (Stmt K)) (k : Nat), is.all nearI = true → (finish is k).all flatS = true
  | [], k, _ => rfl
  | s :: is, k, h => by
    simp only [List.all_cons, Bool.and_eq_true] at h
    obtain ⟨k', hk⟩ := finish_append [s] is k
    have ih := finish_inits_flat is k' h.2
    rw [show s :: is = [s] ++ is from rfl, hk, List.all_append, ih, Bool.and_true]
    cases s with
    | decl _ _ => rfl
    | assign x acc e =>
      have h1 := h.1
      simp only [nearI, Bool.and_eq_true] at h1
      rw [finish_assign]
      exact splitSub_flat x acc e h1.1 h1.2
    | _ => simp [nearI] at h

theorem finish_ret (e : Expr K) (k : Nat) (h : nearE e = true) : (finish [.ret e] k).all flatS = true := by
  have hf : finish [.ret e] k = splitRets [.ret e] k := rfl
  rw [hf, splitRets]
  split
  · have := splitSub_flat (.ret k) [] e rfl h
    simp [splitRets, flatS, flatE, flatAs, isCall, this]
  · rename_i hs
    have h1 : isLit e = false := by simp [isLit, hs]
    have h2 : isCall e = false := by cases e <;> simp_all [isSugar, isCall]
    simp [splitRets, flatS, near_flat h h1, h2]

mutual
/-- Statements of blocks, and (`neatS false`) others. -/
theorem extS_flat (s : Stmt K) (n : Nat) (top : Bool) (h : neatS top s = true) :
    (extS S mixed s n).1.all nearI = true ∧ (∀ k, (finish [(extS S mixed s n).2.1] k).all flatS = true) ∧
    (top = false → flatS (extS S mixed s n).2.1 = true) := by
  have one : ∀ s' : Stmt K, (∀ k, finish [s'] k = [s']) → flatS s' = true →
      (∀ k, (finish [s'] k).all flatS = true) ∧ (top = false → flatS s' = true) := by
    intro s' h1 h2
    exact ⟨fun k => by rw [h1 k]; simp [h2], fun _ => h2⟩
  match s with
  | .decl x d => exact ⟨rfl, one _ (fun _ => rfl) rfl⟩
  | .assign x acc e =>
    simp only [neatS, Bool.and_eq_true, Bool.or_eq_true, Bool.not_eq_true'] at h
    obtain ⟨a1, a2⟩ := extE_flat (S := S) (mixed := mixed) false e n h.1.2
    obtain ⟨b1, b2⟩ := extAs_flat (S := S) (mixed := mixed) false acc (extE S mixed false e n).2.2 h.1.1
    refine ⟨by simp only [extS, List.all_append, a1, b1, Bool.and_self], fun k => ?_, fun ht => ?_⟩
    · simp only [extS]; rw [finish_assign]
      exact splitSub_flat _ _ _ b2 a2
    · simp only [extS, flatS, b2, Bool.true_and]
      refine extE_flat' false e n h.1.2 ?_
      rcases h.2 with h2 | h2
      · rw [ht] at h2; cases h2
      · exact h2
  | .eqc l r =>
    simp only [neatS, Bool.and_eq_true] at h
    obtain ⟨a1, a2⟩ := extE_flat (S := S) (mixed := mixed) false l n h.1.1
    obtain ⟨b1, b2⟩ := extE_flat (S := S) (mixed := mixed) false r (extE S mixed false l n).2.2 h.1.2
    have nolit : isLit l = false → isLit r = false → flatS (extS S mixed (.eqc l r) n).2.1 = true := by
      intro h1 h2
      simp only [extS, flatS, extE_flat' (S := S) (mixed := mixed) false l n h.1.1 h1,
        extE_flat' (S := S) (mixed := mixed) false r _ h.1.2 h2, Bool.and_self]
    have noarr : isLit l = false → isLit r = false → ∀ k, finish [(extS S mixed (.eqc l r) n).2.1] k = [(extS S mixed (.eqc l r) n).2.1] := by
      intro h1 h2 k
      have e1 := isLit_ext (S := S) (mixed := mixed) false l n h1
      have e2 := isLit_ext (S := S) (mixed := mixed) false r (extE S mixed false l n).2.2 h2
      simp only [extS]
      rw [finish_eqc]
      revert e1 e2
      generalize (extE S mixed false l n).2.1 = a
      generalize (extE S mixed false r (extE S mixed false l n).2.2).2.1 = b
      intro e1 e2
      cases a <;> cases b <;> simp [isLit, isSugar, isCall] at e1 e2 <;> rfl
    refine ⟨by simp only [extS, List.all_append, a1, b1, Bool.and_self], ?_⟩
    cases top with
    | false =>
      simp only [Bool.false_eq_true, if_false, Bool.and_eq_true, Bool.not_eq_true'] at h
      exact one _ (noarr h.2.1 h.2.2) (nolit h.2.1 h.2.2)
    | true =>
      simp only [if_true] at h
      refine ⟨fun k => ?_, fun h => by cases h⟩
      by_cases hn : isLit l = false ∧ isLit r = false
      · rw [noarr hn.1 hn.2 k]; simp [nolit hn.1 hn.2]
      · have h2 := h.2
        simp only [extS]
        rw [finish_eqc]
        cases l with
        | arr d vs =>
          cases r with
          | arr d' ws =>
            simp only [extE, nearE] at a2 b2
            simp only [extE, splitEq, eqArr]
            exact eqElems_flat _ _ a2 b2
          | var d' x acc =>
            simp only [extE, nearE, Bool.false_and, Bool.false_eq_true, if_false, flatE] at a2 b2
            simp only [extE, splitEq, eqArr, Bool.false_and, Bool.false_eq_true, if_false]
            exact eqVars_flat _ _ _ b2 _ _ a2
          | _ => simp [neatEq, isLit, isSugar, isCall] at h2
        | var d' x acc =>
          cases r with
          | arr d vs =>
            simp only [extE, nearE, Bool.false_and, Bool.false_eq_true, if_false, flatE] at a2 b2
            simp only [extE, splitEq, eqArr, Bool.false_and, Bool.false_eq_true, if_false]
            exact eqVars_flat _ _ _ a2 _ _ b2
          | _ => simp [neatEq, isLit, isSugar, isCall] at h2 hn
        | _ => cases r <;> simp [neatEq, isLit, isSugar, isCall] at h2 hn
  | .log args =>
    simp only [neatS, Bool.and_eq_true] at h
    exact ⟨(extEs_flat false args n h.1).1, one _ (fun _ => rfl) (extEs_flat' false args n h.1 h.2)⟩
  | .assert e =>
    simp only [neatS, Bool.and_eq_true, Bool.not_eq_true'] at h
    exact ⟨(extE_flat false e n h.1).1, one _ (fun _ => rfl) (extE_flat' false e n h.1 h.2)⟩
  | .ret e =>
    simp only [neatS, Bool.and_eq_true, Bool.or_eq_true, Bool.not_eq_true'] at h
    obtain ⟨a1, a2⟩ := extE_flat (S := S) (mixed := mixed) false e n h.1
    refine ⟨a1, fun k => finish_ret _ k a2, fun ht => ?_⟩
    have hs : isSugar e = false := by
      rcases h.2 with h2 | h2
      · rw [ht] at h2; cases h2
      · exact h2
    have h1 := isSugar_ext (S := S) (mixed := mixed) false e n hs
    simp only [extS, flatS]
    revert a2 h1
    generalize (extE S mixed false e n).2.1 = e'
    intro a2 h1
    have h2 : isCall e' = false := by cases e' <;> simp_all [isSugar, isCall]
    rw [near_flat a2 (by simp [isLit, h1]), h2]; rfl
  | .ite c a b =>
    simp only [neatS, Bool.and_eq_true] at h
    obtain ⟨a1, -, a2⟩ := extS_flat a n false h.1.2
    obtain ⟨b1, -, b2⟩ := extS_flat b (extS S mixed a n).2.2 false h.2
    obtain ⟨c1, c2⟩ := extE_flat (S := S) (mixed := mixed) false c (extS S mixed b (extS S mixed a n).2.2).2.2 h.1.1
    obtain ⟨d1, d2⟩ := filter1_flat (extE S mixed false c (extS S mixed b (extS S mixed a n).2.2).2.2).2.1
      (extE S mixed false c (extS S mixed b (extS S mixed a n).2.2).2.2).2.2 c2
    simp only [extS]
    refine ⟨by simp only [List.all_append, a1, b1, c1, d1, Bool.and_self], one _ (fun _ => rfl) ?_⟩
    simp only [flatS, d2, a2 rfl, b2 rfl, Bool.and_self]
  | .loop c s =>
    simp only [neatS, Bool.and_eq_true] at h
    obtain ⟨a1, -, a2⟩ := extS_flat s n false h.2
    obtain ⟨c1, c2⟩ := extE_flat (S := S) (mixed := mixed) false c (extS S mixed s n).2.2 h.1
    obtain ⟨d1, d2⟩ := filter1_flat (extE S mixed false c (extS S mixed s n).2.2).2.1
      (extE S mixed false c (extS S mixed s n).2.2).2.2 c2
    simp only [extS]
    refine ⟨by simp only [List.all_append, a1, c1, d1, Bool.and_self], one _ (fun _ => rfl) ?_⟩
    simp only [flatS, d2, a2 rfl, Bool.and_self]
  | .block ss =>
    refine ⟨rfl, one _ (fun _ => rfl) ?_⟩
    simp only [extS, flatS, flatL_all]
    exact extL_flat ss h n _
  | .init _ => simp [neatS] at h

theorem extL_flat (ss : List (Stmt K)) (h : neatL ss = true) (n k : Nat) : (finish (extL S mixed ss n).1 k).all flatS = true := by
  match ss with
  | [] => rfl
  | s :: ss =>
    by_cases hi : ∃ is, s = .init is
    · obtain ⟨is, rfl⟩ := hi
      simp only [neatL, Bool.and_eq_true] at h
      simp only [extL]
      obtain ⟨k', hk⟩ := finish_append (extL S mixed is n).1 (extL S mixed ss (extL S mixed is n).2).1 k
      rw [hk, List.all_append, extL_flat is h.1, extL_flat ss h.2]; rfl
    · have hi' : ∀ is, s = .init is → False := fun is h => hi ⟨is, h⟩
      have e1 : neatL (s :: ss) = (neatS true s && neatL ss) := by rw [neatL]; exact hi'
      have e3 : (extL S mixed (s :: ss) n).1 =
          (extS S mixed s n).1 ++ (extS S mixed s n).2.1 :: (extL S mixed ss (extS S mixed s n).2.2).1 := by rw [extL]; exact hi'
      rw [e1, Bool.and_eq_true] at h
      rw [e3]
      obtain ⟨k1, hk1⟩ := finish_append (extS S mixed s n).1 ((extS S mixed s n).2.1 :: (extL S mixed ss (extS S mixed s n).2.2).1) k
      obtain ⟨k2, hk2⟩ := finish_append [(extS S mixed s n).2.1] (extL S mixed ss (extS S mixed s n).2.2).1 k1
      obtain ⟨g1, g2, -⟩ := extS_flat s n true h.1
      rw [hk1, show ∀ (x : Stmt K) l, x :: l = [x] ++ l from fun _ _ => rfl, hk2, List.all_append, List.all_append,
        finish_inits_flat _ _ g1, g2, extL_flat ss h.2]
      rfl
end

end Verif.Sugar
