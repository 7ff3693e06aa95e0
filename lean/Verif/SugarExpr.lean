import Verif.SugarLemmas

set_option linter.unusedSimpArgs false
set_option linter.unusedVariables false
set_option linter.unusedSectionVars false

namespace Verif.Sugar

variable {K : Type} {S : Sem K} {mixed : Name → Bool}

/-! ## Expressions without anything to take out -/

mutual
/-- No call, conditional expression or array in the expression, and no access to a mixed component inside another one. -/
def quietE (mixed : Name → Bool) : Bool → Expr K → Bool
  | _, .num _ => true
  | i, .var _ x acc => !(i && mixed x) && quietAs mixed (i || mixed x) acc
  | i, .infix _ l r => quietE mixed i l && quietE mixed i r
  | i, .pre _ e => quietE mixed i e
  | _, _ => false

/-- Accesses. -/
def quietAs (mixed : Name → Bool) : Bool → List (Acc K) → Bool
  | _, [] => true
  | i, a :: as => quietA mixed i a && quietAs mixed i as

/-- One access. -/
def quietA (mixed : Name → Bool) : Bool → Acc K → Bool
  | i, .idx e => quietE mixed i e
  | _, .fld _ => true
end

theorem isSugar_quiet {i : Bool} {e : Expr K} (h : quietE mixed i e = true) : isSugar e = false := by
  cases e <;> simp_all [quietE, isSugar]

theorem isSugar_ext (inside : Bool) (e : Expr K) (n : Nat) (h : isSugar e = false) : isSugar (extE S mixed inside e n).2.1 = false := by
  cases e with
  | var d x acc =>
    by_cases hb : (inside && mixed x) = true
    · simp only [extE, if_pos hb]; rfl
    · simp only [extE, if_neg hb]; rfl
  | _ => first | rfl | (simp [isSugar] at h; done)

mutual
theorem extE_quiet (i : Bool) (e : Expr K) (n : Nat) (h : quietE mixed i e = true) :
    (extE S mixed i e n).1 = [] ∧ (extE S mixed i e n).2.2 = n := by
  match e with
  | .num _ => exact ⟨rfl, rfl⟩
  | .var d x acc =>
    simp only [quietE, Bool.and_eq_true, Bool.not_eq_true'] at h
    obtain ⟨h1, h2⟩ := extAs_quiet (i || mixed x) acc n h.2
    simp only [extE, h.1, Bool.false_eq_true, if_false]
    exact ⟨h1, h2⟩
  | .infix op l r =>
    simp only [quietE, Bool.and_eq_true] at h
    obtain ⟨a1, a2⟩ := extE_quiet i l n h.1
    obtain ⟨b1, b2⟩ := extE_quiet i r n h.2
    have sl := isSugar_ext (S := S) (mixed := mixed) i l n (isSugar_quiet h.1)
    have sr := isSugar_ext (S := S) (mixed := mixed) i r n (isSugar_quiet h.2)
    simp only [extE, a1, a2, b1, b2, filter1, sl, sr, Bool.false_eq_true, if_false, List.append_nil, and_self]
  | .pre op e =>
    simp only [quietE] at h
    obtain ⟨a1, a2⟩ := extE_quiet i e n h
    have sl := isSugar_ext (S := S) (mixed := mixed) i e n (isSugar_quiet h)
    simp only [extE, a1, a2, filter1, sl, Bool.false_eq_true, if_false, List.append_nil, and_self]
  | .call _ _ _ => simp [quietE] at h
  | .switch _ _ _ _ => simp [quietE] at h
  | .arr _ _ => simp [quietE] at h
  | .uni _ _ _ => simp [quietE] at h

theorem extAs_quiet (i : Bool) (as : List (Acc K)) (n : Nat) (h : quietAs mixed i as = true) :
    (extAs S mixed i as n).1 = [] ∧ (extAs S mixed i as n).2.2 = n := by
  match as with
  | [] => exact ⟨rfl, rfl⟩
  | a :: as =>
    simp only [quietAs, Bool.and_eq_true] at h
    obtain ⟨a1, a2⟩ := extA_quiet i a n h.1
    obtain ⟨b1, b2⟩ := extAs_quiet i as n h.2
    simp only [extAs, a1, a2, b1, b2, List.append_nil, and_self]

theorem extA_quiet (i : Bool) (a : Acc K) (n : Nat) (h : quietA mixed i a = true) :
    (extA S mixed i a n).1 = [] ∧ (extA S mixed i a n).2.2 = n := by
  match a with
  | .fld _ => exact ⟨rfl, rfl⟩
  | .idx e =>
    simp only [quietA] at h
    obtain ⟨a1, a2⟩ := extE_quiet i e n h
    have sl := isSugar_ext (S := S) (mixed := mixed) i e n (isSugar_quiet h)
    simp only [extA, a1, a2, filter1, sl, Bool.false_eq_true, if_false, List.append_nil, and_self]
end

/-! ## Evaluation of everything that is taken out -/

mutual
/-- The branches of all conditional expressions contain nothing to take out.  (The condition is left alone by the pass.) -/
def strictE (mixed : Name → Bool) : Bool → Expr K → Bool
  | _, .num _ => true
  | i, .var _ x acc => strictAs mixed (i || mixed x) acc
  | i, .infix _ l r => strictE mixed i l && strictE mixed i r
  | i, .pre _ e => strictE mixed i e
  | i, .call _ _ args => strictEs mixed i args
  | i, .switch _ _ a b => quietE mixed i a && quietE mixed i b
  | i, .arr _ vs => strictEs mixed i vs
  | i, .uni _ v _ => strictE mixed i v

/-- A list. -/
def strictEs (mixed : Name → Bool) : Bool → List (Expr K) → Bool
  | _, [] => true
  | i, e :: es => strictE mixed i e && strictEs mixed i es

/-- Accesses. -/
def strictAs (mixed : Name → Bool) : Bool → List (Acc K) → Bool
  | _, [] => true
  | i, a :: as => strictA mixed i a && strictAs mixed i as

/-- One access. -/
def strictA (mixed : Name → Bool) : Bool → Acc K → Bool
  | i, .idx e => strictE mixed i e
  | _, .fld _ => true
end

/-- Value of an operation from the values of the operands. -/
def opVal (S : Sem K) (op : Op) : Option (Val K) → Option (Val K) → Option (Val K)
  | some (.num a), some (.num b) => (S.op op a b).map .num
  | _, _ => none

theorem eval_infix (F : Fns K) (E : Env K) (op : Op) (l r : Expr K) :
    eval S F E (.infix op l r) = opVal S op (eval S F E l) (eval S F E r) := by
  simp only [eval, opVal]
  rfl

theorem opVal_some {op : Op} {x y : Option (Val K)} (h : (opVal S op x y).isSome) : x.isSome ∧ y.isSome := by
  unfold opVal at h
  split at h
  · simp
  · simp at h

/-- The change of exponents keeps the value. -/
theorem opVal_fixPow (F : Fns K) (E : Env K) (op : Op) (l r : Expr K) (x : Option (Val K)) :
    opVal S op x (eval S F E (fixPow S op l r)) = opVal S op x (eval S F E r) := by
  have key : opVal S op x (eval S F E (.infix .add (.num S.zero) r)) = opVal S op x (eval S F E r) := by
    rw [eval_infix]
    have h0 : eval S F E (.num S.zero) = some (.num S.zero) := rfl
    rw [h0]
    rcases eval S F E r with _ | (v | vs | _)
    · rfl
    · simp only [opVal, S.zero_add, Option.map_some]
    · rcases x with _ | (_ | _ | _) <;> simp [opVal]
    · rcases x with _ | (_ | _ | _) <;> simp [opVal]
  unfold fixPow
  split
  · split
    · exact key
    · rfl
  · split
    · exact key
    · rfl
  · rfl

mutual
/-- **The pass on expressions.** -/
theorem extE_good (F : Fns K) (N : Nat) (i : Bool) (e : Expr K) (n : Nat) (hs : usesE (below 0) e) :
    Good S F N n (extE S mixed i e n).1 (extE S mixed i e n).2.2 (fun E => eval S F E (extE S mixed i e n).2.1)
      (fun E => eval S F E e) (fun E => strictE mixed i e = true ∧ (eval S F E e).isSome) := by
  match e with
  | .num v =>
    exact (Good.nil n (fun _ => ()) (fun _ => ()) (fun _ _ _ => rfl)).map _ _ _ (fun _ _ => trivial) (fun _ _ _ => rfl)
  | .var d x acc =>
    have ha := extAs_good F N (i || mixed x) acc n hs.2
    have hx : ∀ E E' : Env K, AgreeB 0 E E' → E x = E' x := fun E E' h => h x hs.1
    have h1 : Good S F N n (extAs S mixed (i || mixed x) acc n).1 (extAs S mixed (i || mixed x) acc n).2.2
        (fun E => ((), eval S F E (.var d x (extAs S mixed (i || mixed x) acc n).2.1))) (fun E => ((), eval S F E (.var d x acc)))
        (fun E => strictE mixed i (.var d x acc) = true ∧ (eval S F E (.var d x acc)).isSome) := by
      refine ⟨ha.le, fun E0 E1 r he => ?_, fun E0 h0 => ha.runs E0 ⟨h0.1, ?_⟩⟩
      · obtain ⟨a, b, c⟩ := ha.out E0 E1 r he
        refine ⟨a, b, fun E3 h3 => ?_⟩
        have hp := path_map S F _ _ (c E3 h3)
        have : E3 x = E0 x := ((hx _ _ (b.mono (Nat.zero_le _))).trans (hx _ _ (h3.mono (Nat.zero_le _)))).symm
        simp only [eval, hp, this]
      · have := h0.2
        rw [eval] at this
        rcases hq : path S F E0 acc with _ | p
        · rw [hq] at this; simp at this
        · rfl
    simp only [extE]
    split
    · exact (h1.extract).map _ _ _ (fun E hE => ⟨hE, hE.2⟩) (fun _ _ h => by simpa using h)
    · exact h1.map _ _ _ (fun E hE => hE) (fun _ _ h => by simpa using h)
  | .infix op l r =>
    have hl := extE_good F N i l n hs.1
    have hr := extE_good F N i r (extE S mixed i l n).2.2 hs.2
    have h1 := hl.seq hr (fun E E' h => eval_congr S F h r hs.2) (fun E E' h hn => by rw [← eval_congr S F h r hs.2]; exact hn)
    have h2 := (h1.map (fun E => (eval S F E (extE S mixed i r (extE S mixed i l n).2.2).2.1, eval S F E (extE S mixed i l n).2.1))
      (fun E => (eval S F E r, eval S F E l)) _ (fun E hE => hE) (fun _ _ h => by simp only [Prod.mk.injEq] at h ⊢; exact ⟨h.2, h.1⟩)).filter1
    have h3 := (h2.map (fun E => (eval S F E (filter1 (extE S mixed i l n).2.1 (extE S mixed i r (extE S mixed i l n).2.2).2.2).2.1,
      eval S F E (extE S mixed i r (extE S mixed i l n).2.2).2.1))
      (fun E => (eval S F E l, eval S F E r)) _ (fun E hE => hE) (fun _ _ h => by simp only [Prod.mk.injEq] at h ⊢; exact ⟨h.2, h.1⟩)).filter1
    simp only [extE]
    refine h3.map _ _ _ (fun E hE => ?_) (fun E3 E0 h => ?_)
    · rw [eval_infix] at hE
      obtain ⟨e1, e2⟩ := opVal_some hE.2
      simp only [strictE, Bool.and_eq_true] at hE
      exact ⟨⟨⟨⟨hE.1.1, e1⟩, hE.1.2, e2⟩, e1⟩, e2⟩
    · simp only [Prod.mk.injEq] at h
      rw [eval_infix, eval_infix, opVal_fixPow, h.1, h.2]
  | .pre op e =>
    have h1 := extE_good F N i e n hs
    have h2 := (h1.map (fun E => ((), eval S F E (extE S mixed i e n).2.1)) (fun E => ((), eval S F E e)) _ (fun E hE => hE)
      (fun _ _ h => by simpa using h)).filter1
    simp only [extE]
    refine h2.map _ _ _ (fun E hE => ?_) (fun E3 E0 h => ?_)
    · have : (eval S F E e).isSome := by
        have := hE.2
        rw [eval] at this
        rcases hq : eval S F E e with _ | v
        · rw [hq] at this; simp at this
        · rfl
      exact ⟨⟨hE.1, this⟩, this⟩
    · simp only [Prod.mk.injEq, true_and] at h
      simp only [eval, h]
  | .call d f args =>
    have h1 := extEs_good F N i args n hs
    have h2 := Good.filter _ (h1.map (fun E => ((), (extEs S mixed i args n).2.1.map (eval S F E)))
      (fun E => ((), args.map (eval S F E))) _ (fun E hE => hE) (fun _ _ h => by simpa using h))
    simp only [extE]
    refine h2.map _ _ _ (fun E hE => ?_) (fun E3 E0 h => ?_)
    · have : (evalL S F E args).isSome := by
        have := hE.2
        rw [eval] at this
        rcases hq : evalL S F E args with _ | v
        · rw [hq] at this; simp at this
        · rfl
      refine ⟨⟨hE.1, this⟩, fun x hx => ?_⟩
      obtain ⟨y, hy, rfl⟩ := List.mem_map.1 hx
      exact (evalL_some S F args).1 this y hy
    · simp only [Prod.mk.injEq, true_and] at h
      simp only [eval, evalL_map S F _ _ h]
  | .switch d c a b =>
    have hl := extE_good F N i a n hs.2.1
    have hr := extE_good F N i b (extE S mixed i a n).2.2 hs.2.2
    have h1 := hl.seq hr (fun E E' h => eval_congr S F h b hs.2.2) (fun E E' h hn => by rw [← eval_congr S F h b hs.2.2]; exact hn)
    have h2 := (h1.map (fun E => (eval S F E (extE S mixed i b (extE S mixed i a n).2.2).2.1, eval S F E (extE S mixed i a n).2.1))
      (fun E => (eval S F E b, eval S F E a)) _ (fun E hE => hE) (fun _ _ h => by simp only [Prod.mk.injEq] at h ⊢; exact ⟨h.2, h.1⟩)).filter1
    have h3 := (h2.map (fun E => (eval S F E (filter1 (extE S mixed i a n).2.1 (extE S mixed i b (extE S mixed i a n).2.2).2.2).2.1,
      eval S F E (extE S mixed i b (extE S mixed i a n).2.2).2.1))
      (fun E => (eval S F E a, eval S F E b)) _ (fun E hE => hE) (fun _ _ h => by simp only [Prod.mk.injEq] at h ⊢; exact ⟨h.2, h.1⟩)).filter1
    refine ⟨h3.le, fun E0 E1 r he => ?_, fun E0 h0 => ?_⟩
    · obtain ⟨p, q, w⟩ := h3.out E0 E1 r he
      refine ⟨p, q, fun E3 hE3 => ?_⟩
      have := w E3 hE3
      simp only [Prod.mk.injEq] at this
      have hc : eval S F E3 c = eval S F E0 c := by
        refine (eval_congr S F (fun x hx => ?_) c hs.1).symm
        exact (q x (below.mono (Nat.zero_le _) x hx)).trans (hE3 x (below.mono (Nat.zero_le _) x hx))
      simp only [extE, eval, hc]
      rw [this.1, this.2]
    · have hq := h0.1
      simp only [strictE, Bool.and_eq_true] at hq
      obtain ⟨a1, a2⟩ := extE_quiet (S := S) i a n hq.1
      obtain ⟨b1, b2⟩ := extE_quiet (S := S) i b n hq.2
      have sa := isSugar_ext (S := S) (mixed := mixed) i a n (isSugar_quiet hq.1)
      have sb := isSugar_ext (S := S) (mixed := mixed) i b n (isSugar_quiet hq.2)
      refine ⟨E0, ?_⟩
      simp only [extE, a1, a2, b1, b2, filter1, sa, sb, Bool.false_eq_true, if_false, List.append_nil, execL]
  | .arr d args =>
    have h1 := extEs_good F N i args n hs
    have h2 := Good.filter _ (h1.map (fun E => ((), (extEs S mixed i args n).2.1.map (eval S F E)))
      (fun E => ((), args.map (eval S F E))) _ (fun E hE => hE) (fun _ _ h => by simpa using h))
    simp only [extE]
    refine h2.map _ _ _ (fun E hE => ?_) (fun E3 E0 h => ?_)
    · have : (evalL S F E args).isSome := by
        have := hE.2
        rw [eval] at this
        rcases hq : evalL S F E args with _ | v
        · rw [hq] at this; simp at this
        · rfl
      refine ⟨⟨hE.1, this⟩, fun x hx => ?_⟩
      obtain ⟨y, hy, rfl⟩ := List.mem_map.1 hx
      exact (evalL_some S F args).1 this y hy
    · simp only [Prod.mk.injEq, true_and] at h
      simp only [eval, evalL_map S F _ _ h]
  | .uni d e k =>
    have h1 := extE_good F N i e n hs
    have h2 := (h1.map (fun E => ((), eval S F E (extE S mixed i e n).2.1)) (fun E => ((), eval S F E e)) _ (fun E hE => hE)
      (fun _ _ h => by simpa using h)).filter1
    simp only [extE]
    refine h2.map _ _ _ (fun E hE => ?_) (fun E3 E0 h => ?_)
    · have : (eval S F E e).isSome := by
        have := hE.2
        rw [eval] at this
        rcases hq : eval S F E e with _ | v
        · rw [hq] at this; simp at this
        · rfl
      exact ⟨⟨hE.1, this⟩, this⟩
    · simp only [Prod.mk.injEq, true_and] at h
      simp only [eval, h]

theorem extEs_good (F : Fns K) (N : Nat) (i : Bool) (es : List (Expr K)) (n : Nat) (hs : usesEs (below 0) es) :
    Good S F N n (extEs S mixed i es n).1 (extEs S mixed i es n).2.2 (fun E => (extEs S mixed i es n).2.1.map (eval S F E))
      (fun E => es.map (eval S F E)) (fun E => strictEs mixed i es = true ∧ (evalL S F E es).isSome) := by
  match es with
  | [] => exact (Good.nil n (fun _ => ()) (fun _ => ()) (fun _ _ _ => rfl)).map _ _ _ (fun _ _ => trivial) (fun _ _ _ => rfl)
  | e :: es =>
    have h1 := extE_good F N i e n hs.1
    have h2 := extEs_good F N i es (extE S mixed i e n).2.2 hs.2
    have hc : ∀ E E' : Env K, AgreeB 0 E E' → es.map (eval S F E) = es.map (eval S F E') := by
      intro E E' h
      exact map_eval_congr F h es hs.2
    have h3 := h1.seq h2 hc (fun E E' h hn => by rw [← evalL_congr S F h es hs.2]; exact hn)
    simp only [extEs]
    refine h3.map _ _ _ (fun E hE => ?_) (fun E3 E0 h => ?_)
    · simp only [strictEs, Bool.and_eq_true] at hE
      have := (evalL_some S F (e :: es)).1 hE.2
      exact ⟨⟨hE.1.1, this e List.mem_cons_self⟩, hE.1.2, (evalL_some S F es).2 fun x hx => this x (List.mem_cons_of_mem _ hx)⟩
    · simp only [Prod.mk.injEq] at h
      rw [List.map_cons, List.map_cons, h.1, h.2]

theorem extAs_good (F : Fns K) (N : Nat) (i : Bool) (es : List (Acc K)) (n : Nat) (hs : usesAs (below 0) es) :
    Good S F N n (extAs S mixed i es n).1 (extAs S mixed i es n).2.2 (fun E => (extAs S mixed i es n).2.1.map (access S F E))
      (fun E => es.map (access S F E)) (fun E => strictAs mixed i es = true ∧ (path S F E es).isSome) := by
  match es with
  | [] => exact (Good.nil n (fun _ => ()) (fun _ => ()) (fun _ _ _ => rfl)).map _ _ _ (fun _ _ => trivial) (fun _ _ _ => rfl)
  | a :: es =>
    have h1 := extA_good F N i a n hs.1
    have h2 := extAs_good F N i es (extA S mixed i a n).2.2 hs.2
    have hc : ∀ E E' : Env K, AgreeB 0 E E' → es.map (access S F E) = es.map (access S F E') := by
      intro E E' h
      exact map_access_congr F h es hs.2
    have h3 := h1.seq h2 hc (fun E E' h hn => by rw [← path_congr S F h es hs.2]; exact hn)
    simp only [extAs]
    refine h3.map _ _ _ (fun E hE => ?_) (fun E3 E0 h => ?_)
    · simp only [strictAs, Bool.and_eq_true, path] at hE
      rcases ha : access S F E a with _ | x
      · rw [ha] at hE; simp at hE
      · rw [ha] at hE
        rcases hp : path S F E es with _ | p
        · rw [hp] at hE; simp at hE
        · exact ⟨⟨hE.1.1, rfl⟩, hE.1.2, rfl⟩
    · simp only [Prod.mk.injEq] at h
      rw [List.map_cons, List.map_cons, h.1, h.2]

theorem extA_good (F : Fns K) (N : Nat) (i : Bool) (a : Acc K) (n : Nat) (hs : usesA (below 0) a) :
    Good S F N n (extA S mixed i a n).1 (extA S mixed i a n).2.2 (fun E => access S F E (extA S mixed i a n).2.1)
      (fun E => access S F E a) (fun E => strictA mixed i a = true ∧ (access S F E a).isSome) := by
  match a with
  | .fld k => exact (Good.nil n (fun _ => ()) (fun _ => ()) (fun _ _ _ => rfl)).map _ _ _ (fun _ _ => trivial) (fun _ _ _ => rfl)
  | .idx e =>
    have h1 := extE_good F N i e n hs
    have h2 := (h1.map (fun E => ((), eval S F E (extE S mixed i e n).2.1)) (fun E => ((), eval S F E e)) _ (fun E hE => hE)
      (fun _ _ h => by simpa using h)).filter1
    simp only [extA]
    refine h2.map _ _ _ (fun E hE => ?_) (fun E3 E0 h => ?_)
    · have : (eval S F E e).isSome := by
        have := hE.2
        rw [access] at this
        rcases hq : eval S F E e with _ | v
        · rw [hq] at this; simp at this
        · rfl
      exact ⟨⟨hE.1, this⟩, this⟩
    · simp only [Prod.mk.injEq, true_and] at h
      simp only [access, h]
end

end Verif.Sugar
