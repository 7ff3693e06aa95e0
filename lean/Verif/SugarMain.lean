import Verif.SugarStmt

set_option linter.unusedSimpArgs false
set_option linter.unusedVariables false
set_option linter.unusedSectionVars false

namespace Verif.Sugar

variable {K : Type} {S : Sem K} {F : Fns K} {N : Nat} {mixed : Name → Bool}

/-! ## The last three steps -/

theorem splitRets_append : ∀ (a b : List (Stmt K)) (k : Nat), ∃ k', splitRets (a ++ b) k = splitRets a k ++ splitRets b k'
  | [], b, k => ⟨k, by simp [splitRets]⟩
  | s :: a, b, k => by
    cases s with
    | ret e =>
      simp only [List.cons_append, splitRets]
      split
      · obtain ⟨k', h⟩ := splitRets_append a b (k + 1)
        exact ⟨k', by rw [h]; simp⟩
      · obtain ⟨k', h⟩ := splitRets_append a b k
        exact ⟨k', by rw [h]; simp⟩
    | _ =>
      obtain ⟨k', h⟩ := splitRets_append a b k
      exact ⟨k', by simp [splitRets, h]⟩

theorem finish_append (a b : List (Stmt K)) (k : Nat) : ∃ k', finish (a ++ b) k = finish a k ++ finish b k' := by
  simp only [finish, List.flatMap_append]
  exact splitRets_append _ _ k

/-- Is it a `return`? -/
def isRet : Stmt K → Bool
  | .ret _ => true
  | _ => false

theorem splitRets_id : ∀ (ss : List (Stmt K)) (k : Nat), (∀ s ∈ ss, isRet s = false) → splitRets ss k = ss
  | [], _, _ => rfl
  | s :: ss, k, h => by
    have ih := splitRets_id ss k (fun t ht => h t (by simp [ht]))
    have hs := h s (by simp)
    cases s with
    | ret e => simp [isRet] at hs
    | _ => simp [splitRets, ih]

theorem elems_noret (x : Name) (acc : List (Acc K)) : ∀ (vs : List (Expr K)) (i : Nat), ∀ s ∈ elems x acc i vs, isRet s = false
  | [], _, s, h => by simp [elems] at h
  | v :: vs, i, s, h => by
    simp only [elems, List.mem_cons] at h
    rcases h with rfl | h
    · rfl
    · exact elems_noret x acc vs (i + 1) s h

theorem splitSub_noret (x : Name) (acc : List (Acc K)) (e : Expr K) : ∀ s ∈ splitSub (.assign x acc e), isRet s = false := by
  cases e <;> simp only [splitSub] <;> first | exact elems_noret _ _ _ _ | simp [isRet]

theorem finish_assign (x : Name) (acc : List (Acc K)) (e : Expr K) (k : Nat) :
    finish [.assign x acc e] k = splitSub (.assign x acc e) := by
  simp only [finish, List.flatMap_cons, List.flatMap_nil, List.append_nil, splitSub_noeq]
  exact splitRets_id _ _ (splitSub_noret x acc e)

theorem apartOk_of {x : Name} {e : Expr K} (h : usesE (· ≠ x) e) : apartOk x [] e := by
  cases e with
  | arr d vs => exact ⟨fun _ => rfl, trivial, h⟩
  | uni d v n => exact ⟨trivial, h⟩
  | _ => trivial

theorem below_ne_auto {k : Nat} : ∀ x, below k x → x ≠ .auto k := by
  rintro x hx rfl
  exact absurd hx (by simp [below])

theorem below_ne_ret {n k : Nat} : ∀ x, below n x → x ≠ .ret k := by
  rintro x hx rfl
  exact hx

/-- Statements for temporaries do the same after the last steps. -/
theorem finish_inits : ∀ (is : List (Stmt K)) (k : Nat), (∀ s ∈ is, InitOk s) → ∀ E, execL S F N (finish is k) E = execL S F N is E
  | [], k, _, E => by simp [finish, splitRets]
  | s :: is, k, h, E => by
    obtain ⟨k', hk⟩ := finish_append [s] is k
    have ih := finish_inits is k' (fun t ht => h t (by simp [ht]))
    rw [show s :: is = [s] ++ is from rfl, hk, execL_app, execL_app]
    have h1 : execL S F N (finish [s] k) E = execL S F N [s] E := by
      rcases h s (by simp) with ⟨j, d, rfl⟩ | ⟨j, e, rfl, hu, hw⟩
      · rfl
      · rw [finish_assign, execL_one]
        exact splitSub_assign _ _ _ _ hw (apartOk_of (usesE.imp below_ne_auto e hu))
    rw [h1]
    congr 1
    funext E1
    exact ih E1

/-! ## Calm expressions -/

theorem isSugar_ext_true (inside : Bool) (e : Expr K) (n : Nat) (h : isSugar e = true) : isSugar (extE S mixed inside e n).2.1 = true := by
  cases e <;> first | rfl | (simp [isSugar] at h)

theorem extEs_quiet (i : Bool) : ∀ (es : List (Expr K)) (n : Nat), es.all (quietE mixed i) = true →
    (extEs S mixed i es n).1 = [] ∧ (extEs S mixed i es n).2.2 = n ∧ ∀ e ∈ (extEs S mixed i es n).2.1, isSugar e = false
  | [], n, _ => ⟨rfl, rfl, by simp [extEs]⟩
  | e :: es, n, h => by
    simp only [List.all_cons, Bool.and_eq_true] at h
    obtain ⟨a1, a2⟩ := extE_quiet (S := S) i e n h.1
    obtain ⟨b1, b2, b3⟩ := extEs_quiet i es n h.2
    simp only [extEs, a1, a2, b1, b2, List.append_nil, List.mem_cons, forall_eq_or_imp]
    exact ⟨trivial, trivial, isSugar_ext i e n (isSugar_quiet h.1), b3⟩

theorem filter_none : ∀ (es : List (Expr K)) (n : Nat), (∀ e ∈ es, isSugar e = false) → (filter es n).1 = [] ∧ (filter es n).2.2 = n
  | [], n, _ => ⟨rfl, rfl⟩
  | e :: es, n, h => by
    have h1 := h e (by simp)
    obtain ⟨a, b⟩ := filter_none es n (fun x hx => h x (by simp [hx]))
    simp only [filter, h1, Bool.false_eq_true, if_false, a, b, and_self]

theorem extE_calm (e : Expr K) (n : Nat) (h : calmE mixed e = true) :
    (extE S mixed false e n).1 = [] ∧ (extE S mixed false e n).2.2 = n := by
  cases e with
  | call d f args =>
    obtain ⟨a1, a2, a3⟩ := extEs_quiet (S := S) false args n h
    obtain ⟨b1, b2⟩ := filter_none (extEs S mixed false args n).2.1 n a3
    simp only [extE, a1, a2, b1, b2, List.append_nil, and_self]
  | arr d args =>
    obtain ⟨a1, a2, a3⟩ := extEs_quiet (S := S) false args n h
    obtain ⟨b1, b2⟩ := filter_none (extEs S mixed false args n).2.1 n a3
    simp only [extE, a1, a2, b1, b2, List.append_nil, and_self]
  | switch d c l r =>
    simp only [calmE, Bool.and_eq_true] at h
    obtain ⟨a1, a2⟩ := extE_quiet (S := S) false l n h.1
    obtain ⟨b1, b2⟩ := extE_quiet (S := S) false r n h.2
    have sl := isSugar_ext (S := S) (mixed := mixed) false l n (isSugar_quiet h.1)
    have sr := isSugar_ext (S := S) (mixed := mixed) false r n (isSugar_quiet h.2)
    simp only [extE, a1, a2, b1, b2, filter1, sl, sr, Bool.false_eq_true, if_false, List.append_nil, and_self]
  | uni d v k =>
    simp only [calmE] at h
    obtain ⟨a1, a2⟩ := extE_quiet (S := S) false v n h
    have sl := isSugar_ext (S := S) (mixed := mixed) false v n (isSugar_quiet h)
    simp only [extE, a1, a2, filter1, sl, Bool.false_eq_true, if_false, List.append_nil, and_self]
  | num _ => exact extE_quiet false _ n h
  | var _ _ _ => exact extE_quiet false _ n h
  | «infix» _ _ _ => exact extE_quiet false _ n h
  | pre _ _ => exact extE_quiet false _ n h

theorem extEs_calm : ∀ (es : List (Expr K)) (n : Nat), es.all (calmE mixed) = true →
    (extEs S mixed false es n).1 = [] ∧ (extEs S mixed false es n).2.2 = n
  | [], n, _ => ⟨rfl, rfl⟩
  | e :: es, n, h => by
    simp only [List.all_cons, Bool.and_eq_true] at h
    obtain ⟨a1, a2⟩ := extE_calm (S := S) e n h.1
    obtain ⟨b1, b2⟩ := extEs_calm es n h.2
    simp only [extEs, a1, a2, b1, b2, List.append_nil, and_self]

theorem extS_quiet (s : Stmt K) (n : Nat) (h : quietS mixed s = true) : (extS S mixed s n).1 = [] ∧ (extS S mixed s n).2.2 = n := by
  match s with
  | .decl x d => exact ⟨rfl, rfl⟩
  | .assign x acc e =>
    simp only [quietS, Bool.and_eq_true] at h
    obtain ⟨a1, a2⟩ := extE_calm (S := S) e n h.1
    obtain ⟨b1, b2⟩ := extAs_quiet (S := S) false acc n h.2
    simp only [extS, a1, a2, b1, b2, List.append_nil, and_self]
  | .eqc l r =>
    simp only [quietS, Bool.and_eq_true] at h
    obtain ⟨a1, a2⟩ := extE_calm (S := S) l n h.1
    obtain ⟨b1, b2⟩ := extE_calm (S := S) r n h.2
    simp only [extS, a1, a2, b1, b2, List.append_nil, and_self]
  | .log args => exact extEs_calm args n h
  | .assert e => exact extE_calm e n h
  | .ret e => exact extE_calm e n h
  | .ite c a b =>
    simp only [quietS, Bool.and_eq_true] at h
    obtain ⟨a1, a2⟩ := extS_quiet a n h.1.2
    obtain ⟨b1, b2⟩ := extS_quiet b n h.2
    obtain ⟨c1, c2⟩ := extE_quiet (S := S) false c n h.1.1
    have sl := isSugar_ext (S := S) (mixed := mixed) false c n (isSugar_quiet h.1.1)
    simp only [extS, a1, a2, b1, b2, c1, c2, filter1, sl, Bool.false_eq_true, if_false, List.append_nil, and_self]
  | .loop c s =>
    simp only [quietS, Bool.and_eq_true] at h
    obtain ⟨a1, a2⟩ := extS_quiet s n h.2
    obtain ⟨c1, c2⟩ := extE_quiet (S := S) false c n h.1
    have sl := isSugar_ext (S := S) (mixed := mixed) false c n (isSugar_quiet h.1)
    simp only [extS, a1, a2, c1, c2, filter1, sl, Bool.false_eq_true, if_false, List.append_nil, and_self]
  | .block ss => exact ⟨rfl, rfl⟩
  | .init ss => exact ⟨rfl, rfl⟩

/-! ## What the last steps need of changed statements -/

theorem alias_ext {P : Name → Prop} (hP : ∀ k, P (.auto k)) (i : Bool) (v : Expr K) (n : Nat)
    (h : isSugar v = true ∨ usesE P v) : isSugar (extE S mixed i v n).2.1 = true ∨ usesE P (extE S mixed i v n).2.1 := by
  rcases h with h | h
  · exact .inl (isSugar_ext_true i v n h)
  · exact .inr ((extE_names i v n).names P h (fun k _ _ => hP k))

theorem alias_exts {P : Name → Prop} (hP : ∀ k, P (.auto k)) (i : Bool) : ∀ (vs : List (Expr K)) (n : Nat),
    (∀ v ∈ vs, isSugar v = true ∨ usesE P v) → ∀ v ∈ (extEs S mixed i vs n).2.1, isSugar v = true ∨ usesE P v
  | [], n, _, v, hv => by simp [extEs] at hv
  | e :: es, n, h, v, hv => by
    simp only [extEs, List.mem_cons] at hv
    rcases hv with rfl | hv
    · exact alias_ext hP i e n (h e (by simp))
    · exact alias_exts hP i es _ (fun u hu => h u (by simp [hu])) v hv

theorem filter1_uses {P : Name → Prop} (hP : ∀ k, P (.auto k)) (v : Expr K) (n : Nat) (h : isSugar v = true ∨ usesE P v) :
    usesE P (filter1 v n).2.1 := by
  unfold filter1
  split
  · exact ⟨hP n, trivial⟩
  · rcases h with h | h
    · rename_i h'; exact absurd h h'
    · exact h

theorem filter_uses {P : Name → Prop} (hP : ∀ k, P (.auto k)) : ∀ (vs : List (Expr K)) (n : Nat),
    (∀ v ∈ vs, isSugar v = true ∨ usesE P v) → usesEs P (filter vs n).2.1
  | [], n, _ => trivial
  | v :: vs, n, h => by
    unfold filter
    split
    · exact ⟨⟨hP n, trivial⟩, filter_uses hP vs (n + 1) (fun u hu => h u (by simp [hu]))⟩
    · refine ⟨?_, filter_uses hP vs n (fun u hu => h u (by simp [hu]))⟩
      rcases h v (by simp) with h | h
      · rename_i h'; exact absurd h h'
      · exact h

theorem ext_elems_length (i : Bool) (vs : List (Expr K)) (n : Nat) :
    (filter (extEs S mixed i vs n).2.1 (extEs S mixed i vs n).2.2).2.1.length = vs.length := by
  have := congrArg List.length ((extEs_names (S := S) (mixed := mixed) i vs n).then (filter_names _ _)).dim
  simpa using this

theorem apartOk_ext {x : Name} (hx : below 0 x) {acc : List (Acc K)} {e : Expr K} (h : litOk x acc e) (n m : Nat) :
    apartOk x (extAs S mixed false acc m).2.1 (extE S mixed false e n).2.1 := by
  have hP : ∀ k, (Name.auto k) ≠ x := by
    rintro k rfl
    exact absurd hx (by simp [below])
  cases e with
  | arr d vs =>
    obtain ⟨h1, h2, h3⟩ := h
    simp only [extE]
    refine ⟨fun h0 => ?_, (extAs_names false acc m).names _ h2 (fun k _ _ => hP k), filter_uses hP _ _ (alias_exts hP false vs n h3)⟩
    have hl := ext_elems_length (S := S) (mixed := mixed) false vs n
    rw [h0] at hl
    have hv : vs = [] := List.length_eq_zero_iff.1 hl.symm
    have ha := (extAs_names (S := S) (mixed := mixed) false acc m).len
    rw [h1 hv] at ha ⊢
    exact List.length_eq_zero_iff.1 ha
  | uni d v k =>
    obtain ⟨h2, h3⟩ := h
    simp only [extE]
    exact ⟨(extAs_names false acc m).names _ h2 (fun k _ _ => hP k), filter1_uses hP _ _ (alias_ext hP false v n h3)⟩
  | var d y a => simp only [extE, Bool.false_and, Bool.false_eq_true, if_false]; trivial
  | _ => trivial

theorem eqOk_ext {l r : Expr K} (h : eqOk l r) (n m : Nat) : eqOk (extE S mixed false l n).2.1 (extE S mixed false r m).2.1 := by
  have key : ∀ (e : Expr K) (n : Nat), isArr e = false → isArr (extE S mixed false e n).2.1 = false := by
    intro e n h
    cases e with
    | var d y a => simp only [extE, Bool.false_and, Bool.false_eq_true, if_false]; rfl
    | arr _ _ => simp [isArr] at h
    | _ => rfl
  rcases h with ⟨h1, h2⟩ | ⟨d, vs, d', ws, rfl, rfl, h⟩
  · exact .inl ⟨key _ _ h1, key _ _ h2⟩
  · refine .inr ⟨_, _, _, _, rfl, rfl, ?_⟩
    rw [ext_elems_length, ext_elems_length, h]

/-- Splitting of a changed statement. -/
theorem finish_sim (s : Stmt K) (hs : tameS mixed s) (n k : Nat) (E : Env K) :
    Sim true (execL S F N (finish [(extS S mixed s n).2.1] k) E) (exec S F N (extS S mixed s n).2.1 E) := by
  match s with
  | .assign x acc e =>
    simp only [extS]
    rw [finish_assign, splitSub_assign]
    · exact Sim.rfl' _
    · exact (extE_names _ _ _).wf hs.2.2.1.2
    · exact apartOk_ext hs.1 hs.2.2.2 _ _
  | .eqc l r =>
    simp only [extS]
    have : finish [.eqc (extE S mixed false l n).2.1 (extE S mixed false r (extE S mixed false l n).2.2).2.1] k =
        splitEq (.eqc (extE S mixed false l n).2.1 (extE S mixed false r (extE S mixed false l n).2.2).2.1) := by
      simp only [finish, List.flatMap_cons, List.flatMap_nil, List.append_nil, splitSub]
      refine splitRets_id _ _ ?_
      rcases eqOk_ext (S := S) (mixed := mixed) hs.2.2 n (extE S mixed false l n).2.2 with ⟨h1, h2⟩ | ⟨d, vs, d', ws, h1, h2, h⟩
      · intro s hs
        have : splitEq (.eqc (extE S mixed false l n).2.1 (extE S mixed false r (extE S mixed false l n).2.2).2.1) =
            [.eqc (extE S mixed false l n).2.1 (extE S mixed false r (extE S mixed false l n).2.2).2.1] := by
          revert h1 h2
          generalize (extE S mixed false l n).2.1 = a
          generalize (extE S mixed false r (extE S mixed false l n).2.2).2.1 = b
          intro h1 h2
          cases a <;> cases b <;> simp [isArr] at h1 h2 <;> rfl
        rw [this] at hs
        simp only [List.mem_cons, List.not_mem_nil, or_false] at hs
        rw [hs]; rfl
      · rw [h1, h2]
        simp only [splitEq, eqArr]
        intro s hs
        clear h1 h2 h
        induction vs generalizing ws with
        | nil => simp [eqElems] at hs
        | cons v vs ih =>
          cases ws with
          | nil => simp [eqElems] at hs
          | cons w ws =>
            simp only [eqElems, List.mem_cons] at hs
            rcases hs with rfl | hs
            · rfl
            · exact ih ws hs
    rw [this, splitEq_exec]
    · exact Sim.rfl' _
    · exact (extE_names _ _ _).wf hs.1.2
    · exact (extE_names _ _ _).wf hs.2.1.2
    · exact eqOk_ext hs.2.2 _ _
  | .ret e =>
    simp only [extS]
    have hu : usesE (below (extE S mixed false e n).2.2) (extE S mixed false e n).2.1 :=
      (extE_names _ _ _).below (le_refl _) (usesE.imp (below.mono (Nat.zero_le _)) e hs.1)
    have hw := (extE_names (S := S) (mixed := mixed) false e n).wf hs.2
    revert hu hw
    generalize (extE S mixed false e n).2.1 = e'
    intro hu hw
    have hf : finish [.ret e'] k = splitRets [.ret e'] k := rfl
    rw [hf, splitRets]
    split
    · have hne : ∀ x, below (extE S mixed false e n).2.2 x → E.put (.ret k) (blank (dims e')) x = E x :=
        fun x hx => put_ne (below_ne_ret x hx)
      have h1 := splitSub_assign (S := S) (F := F) (N := N) (.ret k) [] e' (E.put (.ret k) (blank (dims e'))) hw
        (apartOk_of (usesE.imp below_ne_ret e' hu))
      rw [execL_cons]
      simp only [exec, andThen]
      rw [execL_app, h1]
      simp only [exec, path, eval_congr S F hne e' hu, put_same]
      rcases hv : eval S F E e' with _ | v
      · exact Sim.none
      · have hf := eval_fits S F E e' v hv
        have := over_blank (dims e') v hf
        simp only [store, this, put_put, andThen]
        have h2 : eval S F (E.put (.ret k) v) (.var (dims e') (.ret k) []) = some v := by
          simp [eval, path, fetch, put_same, checked, hf]
        simp only [execL, exec, h2]
        exact Sim.some (AgreeB.rfl'.put_ret)
    · simp only [splitRets, execL_one]
      exact Sim.rfl' _
  | .decl x d => rw [show finish [(extS S mixed (.decl x d) n).2.1] k = [(extS S mixed (.decl x d) n).2.1] from rfl, execL_one]; exact Sim.rfl' _
  | .log a => rw [show finish [(extS S mixed (.log a) n).2.1] k = [(extS S mixed (.log a) n).2.1] from rfl, execL_one]; exact Sim.rfl' _
  | .assert a => rw [show finish [(extS S mixed (.assert a) n).2.1] k = [(extS S mixed (.assert a) n).2.1] from rfl, execL_one]; exact Sim.rfl' _
  | .ite c a b =>
    rw [show finish [(extS S mixed (.ite c a b) n).2.1] k = [(extS S mixed (.ite c a b) n).2.1] from rfl, execL_one]; exact Sim.rfl' _
  | .loop c a => rw [show finish [(extS S mixed (.loop c a) n).2.1] k = [(extS S mixed (.loop c a) n).2.1] from rfl, execL_one]; exact Sim.rfl' _
  | .block a => rw [show finish [(extS S mixed (.block a) n).2.1] k = [(extS S mixed (.block a) n).2.1] from rfl, execL_one]; exact Sim.rfl' _
  | .init _ => exact absurd hs (by simp [tameS])

/-! ## Statements -/

/-- What is known about a changed statement. -/
structure GoodS (b : Bool) (S : Sem K) (F : Fns K) (N n : Nat) (is : List (Stmt K)) (n' : Nat) (s' s : Stmt K) : Prop where
  le : n ≤ n'
  inits : ∀ t ∈ is, InitOk t
  out : ∀ E0 E1 r, execL S F N is E0 = some (E1, r) → r = none ∧ AgreeB n E0 E1 ∧
    ∀ E3, AgreeB n' E1 E3 → Sim b (exec S F N s' E3) (exec S F N s E0)
  runs : b = true → ∀ E0, (exec S F N s E0).isSome = true → ∃ E1, execL S F N is E0 = some (E1, none)

theorem GoodS.ofGood {α : Type} {b : Bool} {n n' : Nat} {is : List (Stmt K)} {s' s : Stmt K} {obs' obs : Env K → α} {need : Env K → Prop}
    (h : Good S F N n is n' obs' obs need) (hi : ∀ t ∈ is, InitOk t) (g : α → Env K → Option (Env K × Option (Val K)))
    (h' : ∀ E, exec S F N s' E = g (obs' E) E) (h0 : ∀ E, exec S F N s E = g (obs E) E)
    (hg : ∀ o E E', AgreeB 0 E E' → Sim b (g o E') (g o E)) (hn : b = true → ∀ E, (exec S F N s E).isSome = true → need E) :
    GoodS b S F N n is n' s' s := by
  refine ⟨h.le, hi, fun E0 E1 r he => ?_, fun hb E0 hE => h.runs E0 (hn hb E0 hE)⟩
  obtain ⟨h1, h2, h3⟩ := h.out E0 E1 r he
  refine ⟨h1, h2, fun E3 h4 => ?_⟩
  rw [h', h0, h3 E3 h4]
  exact hg _ _ _ ((h2.mono (Nat.zero_le _)).trans (h4.mono (Nat.zero_le _)))

/-- A statement in front of which nothing is put. -/
theorem GoodS.same {b : Bool} {n n' : Nat} {s' s : Stmt K} (h : GoodS b S F N n [] n' s' s) (hs : tameS mixed s) (E E' : Env K)
    (hE : AgreeB 0 E E') : Sim b (exec S F N s' E') (exec S F N s E) := by
  obtain ⟨-, -, h3⟩ := h.out E' E' none rfl
  exact (h3 E' AgreeB.rfl').trans ((exec_src s hs E E' hE).weaken fun _ => rfl)

mutual
/-- **The pass on statements.** -/
theorem extS_good (s : Stmt K) (hs : tameS mixed s) (n : Nat) :
    GoodS (strictS mixed s) S F N n (extS S mixed s n).1 (extS S mixed s n).2.2 (extS S mixed s n).2.1 s := by
  match s with
  | .decl x d =>
    refine ⟨le_refl _, by simp [extS], fun E0 E1 r he => ?_, fun _ E0 _ => ⟨E0, rfl⟩⟩
    simp only [extS, execL, Option.some.injEq, Prod.mk.injEq] at he
    obtain ⟨rfl, rfl⟩ := he
    exact ⟨rfl, AgreeB.rfl', fun E3 h3 => Sim.some ((h3.mono (Nat.zero_le _)).put)⟩
  | .assign x acc e =>
    obtain ⟨hx, ha, he, -⟩ := hs
    have h1 := extE_good (S := S) (mixed := mixed) F N false e n he.1
    have h2 := extAs_good (S := S) (mixed := mixed) F N false acc (extE S mixed false e n).2.2 ha.1
    have h3 := h1.seq h2 (fun E E' h => map_access_congr F h acc ha.1) (fun E E' h hn => by rw [← path_congr S F h acc ha.1]; exact hn)
    have h4 := h3.map (fun E => (eval S F E (extE S mixed false e n).2.1, path S F E (extAs S mixed false acc (extE S mixed false e n).2.2).2.1))
      (fun E => (eval S F E e, path S F E acc)) _ (fun _ h => h) (fun E3 E0 h => by
        simp only [Prod.mk.injEq] at h ⊢
        exact ⟨h.1, path_map S F _ _ h.2⟩)
    refine GoodS.ofGood h4 ?_ (fun o E => match o.2, o.1 with
      | some p, some v =>
        match store p (E x) v with
        | none => none
        | some w => some (E.put x w, none)
      | _, _ => none) (fun E => rfl) (fun E => rfl) (fun o E E' h => ?_) (fun hb E hE => ?_)
    · intro t ht
      rcases List.mem_append.1 ht with ht | ht
      · exact (extE_names _ _ _).inits (usesE.imp (below.mono (Nat.zero_le _)) e he.1) he.2 t ht
      · exact (extAs_names _ _ _).inits (usesAs.imp (below.mono (Nat.zero_le _)) acc ha.1) ha.2 t ht
    · simp only [h x hx]
      split
      · split
        · exact Sim.none
        · exact Sim.some h.put
      · exact Sim.none
    · simp only [strictS, Bool.and_eq_true] at hb
      simp only [exec] at hE
      rcases hp : path S F E acc with _ | p
      · rw [hp] at hE; simp at hE
      · rcases hv : eval S F E e with _ | v
        · rw [hp, hv] at hE; simp at hE
        · simp [hb]
  | .eqc l r =>
    obtain ⟨hl, hr, -⟩ := hs
    have h1 := extE_good (S := S) (mixed := mixed) F N false l n hl.1
    have h2 := extE_good (S := S) (mixed := mixed) F N false r (extE S mixed false l n).2.2 hr.1
    have h3 := h1.seq h2 (fun E E' h => eval_congr S F h r hr.1) (fun E E' h hn => by rw [← eval_congr S F h r hr.1]; exact hn)
    refine GoodS.ofGood h3 ?_ (fun o E => match o.1, o.2 with
      | some a, some b => if Sugar.same S.eq a b then some (E, none) else none
      | _, _ => none) (fun E => rfl) (fun E => rfl) (fun o E E' h => ?_) (fun hb E hE => ?_)
    · intro t ht
      rcases List.mem_append.1 ht with ht | ht
      · exact (extE_names _ _ _).inits (usesE.imp (below.mono (Nat.zero_le _)) l hl.1) hl.2 t ht
      · exact (extE_names _ _ _).inits (usesE.imp (below.mono (Nat.zero_le _)) r hr.1) hr.2 t ht
    · split
      · split
        · exact Sim.some h
        · exact Sim.none
      · exact Sim.none
    · simp only [strictS, Bool.and_eq_true] at hb
      simp only [exec] at hE
      rcases hp : eval S F E l with _ | p
      · rw [hp] at hE; simp at hE
      · rcases hv : eval S F E r with _ | v
        · rw [hp, hv] at hE; simp at hE
        · simp [hb]
  | .log args =>
    have h1 := extEs_good (S := S) (mixed := mixed) F N false args n hs.1
    have h4 := h1.map (fun E => evalL S F E (extEs S mixed false args n).2.1) (fun E => evalL S F E args) _ (fun _ h => h)
      (fun E3 E0 h => evalL_map S F _ _ h)
    refine GoodS.ofGood h4 ?_ (fun o E => match o with
      | none => none
      | some _ => some (E, none)) (fun E => rfl) (fun E => rfl) (fun o E E' h => ?_) (fun hb E hE => ?_)
    · intro t ht
      exact (extEs_names _ _ _).inits (usesEs.imp (below.mono (Nat.zero_le _)) args hs.1) hs.2 t ht
    · rcases o with _ | o
      · exact Sim.none
      · exact Sim.some h
    · simp only [exec] at hE
      rcases hp : evalL S F E args with _ | p
      · rw [hp] at hE; simp at hE
      · exact ⟨hb, rfl⟩
  | .assert e =>
    have h1 := extE_good (S := S) (mixed := mixed) F N false e n hs.1
    refine GoodS.ofGood h1 ?_ (fun o E => match (match o with
        | some (.num v) => some (S.truthy v)
        | _ => none) with
      | some true => some (E, none)
      | _ => none) (fun E => rfl) (fun E => rfl) (fun o E E' h => ?_) (fun hb E hE => ?_)
    · intro t ht
      exact (extE_names _ _ _).inits (usesE.imp (below.mono (Nat.zero_le _)) e hs.1) hs.2 t ht
    · split
      · exact Sim.some h
      · exact Sim.none
    · simp only [exec, cond] at hE
      rcases hp : eval S F E e with _ | p
      · rw [hp] at hE; simp at hE
      · exact ⟨hb, rfl⟩
  | .ret e =>
    have h1 := extE_good (S := S) (mixed := mixed) F N false e n hs.1
    refine GoodS.ofGood h1 ?_ (fun o E => match o with
      | none => none
      | some v => some (E, some v)) (fun E => rfl) (fun E => rfl) (fun o E E' h => ?_) (fun hb E hE => ?_)
    · intro t ht
      exact (extE_names _ _ _).inits (usesE.imp (below.mono (Nat.zero_le _)) e hs.1) hs.2 t ht
    · rcases o with _ | o
      · exact Sim.none
      · exact Sim.some h
    · simp only [exec] at hE
      rcases hp : eval S F E e with _ | p
      · rw [hp] at hE; simp at hE
      · exact ⟨hb, rfl⟩
  | .ite c a b =>
    obtain ⟨hc, ha, hb⟩ := hs
    have ga := extS_good a ha n
    have gb := extS_good b hb (extS S mixed a n).2.2
    have gc := ((extE_good (S := S) (mixed := mixed) F N false c (extS S mixed b (extS S mixed a n).2.2).2.2 hc.1).map
      (fun E => ((), eval S F E (extE S mixed false c (extS S mixed b (extS S mixed a n).2.2).2.2).2.1))
      (fun E => ((), eval S F E c)) _ (fun E hE => hE) (fun _ _ h => by simpa using h)).filter1
    have hfin : ∀ E : Env K, ∀ x y : Option (Val K), x = y → (match x with
        | some (.num v) => some (S.truthy v)
        | _ => none) = (match y with
        | some (.num v) => some (S.truthy v)
        | _ => none) := fun _ _ _ h => by rw [h]
    simp only [extS]
    refine ⟨le_trans ga.le (le_trans gb.le gc.le), ?_, fun E0 E4 r he => ?_, fun hst E0 hE => ?_⟩
    · intro t ht
      rw [List.append_assoc] at ht
      rcases List.mem_append.1 ht with ht | ht
      · rcases List.mem_append.1 ht with ht | ht
        · exact ga.inits t ht
        · exact gb.inits t ht
      · exact ((extE_names (S := S) (mixed := mixed) false c _).then (filter1_names _ _)).inits
          (usesE.imp (below.mono (Nat.zero_le _)) c hc.1) hc.2 t ht
    · rw [List.append_assoc, execL_append, execL_append] at he
      rcases h1 : execL S F N (extS S mixed a n).1 E0 with _ | ⟨E1, r1⟩
      · rw [h1] at he; cases he
      obtain ⟨rfl, a1, a2⟩ := ga.out E0 E1 r1 h1
      rw [h1] at he
      simp only at he
      rcases h2 : execL S F N (extS S mixed b (extS S mixed a n).2.2).1 E1 with _ | ⟨E2, r2⟩
      · rw [h2] at he; cases he
      obtain ⟨rfl, b1, b2⟩ := gb.out E1 E2 r2 h2
      rw [h2] at he
      simp only at he
      obtain ⟨rfl, c1, c2⟩ := gc.out E2 E4 r he
      have e1 := ga.le
      have e2 := gb.le
      have e3 := gc.le
      refine ⟨rfl, a1.trans ((b1.mono e1).trans (c1.mono (le_trans e1 e2))), fun E5 h5 => ?_⟩
      have hce := c2 E5 h5
      simp only [Prod.mk.injEq, true_and] at hce
      have hsrc : AgreeB 0 E0 E2 := (a1.mono (Nat.zero_le _)).trans (b1.mono (Nat.zero_le _))
      have hcc : cond S F E5 (filter1 (extE S mixed false c (extS S mixed b (extS S mixed a n).2.2).2.2).2.1
          (extE S mixed false c (extS S mixed b (extS S mixed a n).2.2).2.2).2.2).2.1 = cond S F E0 c := by
        rw [cond, hce, ← eval_congr S F hsrc c hc.1]; rfl
      have A : AgreeB (extS S mixed b (extS S mixed a n).2.2).2.2 E2 E5 := c1.trans (h5.mono e3)
      have B : AgreeB (extS S mixed a n).2.2 E1 E5 := b1.trans (A.mono e2)
      simp only [exec, hcc]
      rcases cond S F E0 c with _ | _ | _
      · exact Sim.none
      · refine ((b2 E5 A).trans ((exec_src b hb E0 E1 (a1.mono (Nat.zero_le _))).weaken fun _ => rfl)).weaken fun h => ?_
        simp only [strictS, Bool.and_eq_true] at h
        exact h.2.2
      · refine (a2 E5 B).weaken fun h => ?_
        simp only [strictS, Bool.and_eq_true] at h
        exact h.2.1
    · simp only [strictS, Bool.and_eq_true] at hst
      obtain ⟨a1, a2⟩ := extS_quiet (S := S) a n hst.1.2.1
      obtain ⟨b1, b2⟩ := extS_quiet (S := S) b n hst.1.2.2
      have hv : (eval S F E0 c).isSome := by
        simp only [exec, cond] at hE
        rcases hp : eval S F E0 c with _ | p
        · rw [hp] at hE; simp at hE
        · rfl
      obtain ⟨E1, h1⟩ := gc.runs E0 ⟨⟨hst.1.1, hv⟩, hv⟩
      refine ⟨E1, ?_⟩
      rw [List.append_assoc, a1, a2, b1]
      rw [a2] at h1
      exact h1
  | .loop c t =>
    obtain ⟨hc, hq, ht, hqt⟩ := hs
    have gs := extS_good t ht n
    obtain ⟨a1, a2⟩ := extS_quiet (S := S) t n hqt
    obtain ⟨c1, c2⟩ := extE_quiet (S := S) false c n hq
    have sl := isSugar_ext (S := S) (mixed := mixed) false c n (isSugar_quiet hq)
    have hcu : usesE (below 0) (extE S mixed false c n).2.1 :=
      (extE_names false c n).names _ hc.1 (fun k h1 h2 => by rw [c2] at h2; omega)
    have hcond : ∀ E E' : Env K, AgreeB 0 E E' → cond S F E' (extE S mixed false c n).2.1 = cond S F E c := by
      intro E E' h
      have gc := extE_good (S := S) (mixed := mixed) F N false c n hc.1
      rw [c1] at gc
      obtain ⟨-, -, h3⟩ := gc.out E E none rfl
      have := h3 E AgreeB.rfl'
      rw [← cond_congr S F h _ hcu, cond, this]; rfl
    rw [a1, a2] at gs
    simp only [extS, a1, a2, c1, c2, filter1, sl, Bool.false_eq_true, if_false, List.append_nil]
    refine ⟨le_refl _, by simp, fun E0 E1 r he => ?_, fun _ E0 _ => ⟨E0, rfl⟩⟩
    simp only [execL, Option.some.injEq, Prod.mk.injEq] at he
    obtain ⟨rfl, rfl⟩ := he
    refine ⟨rfl, AgreeB.rfl', fun E3 h3 => ?_⟩
    simp only [exec]
    exact Sim.iter hcond (fun E E' h => gs.same ht E E' h) N E0 E3 (h3.mono (Nat.zero_le _))
  | .block ss =>
    refine ⟨le_refl _, by simp [extS], fun E0 E1 r he => ?_, fun _ E0 _ => ⟨E0, rfl⟩⟩
    simp only [extS, execL, Option.some.injEq, Prod.mk.injEq] at he
    obtain ⟨rfl, rfl⟩ := he
    refine ⟨rfl, AgreeB.rfl', fun E3 h3 => ?_⟩
    simp only [extS, exec]
    exact extL_good ss hs n _ E0 E3 (h3.mono (Nat.zero_le _))
  | .init _ => exact absurd hs (by simp [tameS])

/-- **The pass on the statements of a block.** -/
theorem extL_good (ss : List (Stmt K)) (hs : tameL mixed ss) (n k : Nat) (E E' : Env K) (h : AgreeB 0 E E') :
    Sim (strictL mixed ss) (execL S F N (finish (extL S mixed ss n).1 k) E') (execL S F N ss E) := by
  match ss with
  | [] => exact Sim.some h
  | s :: ss =>
    by_cases hi : ∃ is, s = .init is
    · obtain ⟨is, rfl⟩ := hi
      simp only [tameL] at hs
      simp only [extL, strictL]
      obtain ⟨k', hk⟩ := finish_append (extL S mixed is n).1 (extL S mixed ss (extL S mixed is n).2).1 k
      rw [hk, execL_app, execL_cons]
      simp only [exec]
      refine Sim.andThen ((extL_good is hs.1 n k E E' h).weaken fun h => ?_)
        fun E E' h => (extL_good ss hs.2 _ k' E E' h).weaken fun h => ?_
      · simp only [Bool.and_eq_true] at h; exact h.1
      · simp only [Bool.and_eq_true] at h; exact h.2
    · have hi' : ∀ is, s = .init is → False := fun is h => hi ⟨is, h⟩
      have e1 : tameL mixed (s :: ss) = (tameS mixed s ∧ tameL mixed ss) := by rw [tameL]; exact hi'
      have e2 : strictL mixed (s :: ss) = (strictS mixed s && strictL mixed ss) := by rw [strictL]; exact hi'
      have e3 : (extL S mixed (s :: ss) n).1 =
          (extS S mixed s n).1 ++ (extS S mixed s n).2.1 :: (extL S mixed ss (extS S mixed s n).2.2).1 := by rw [extL]; exact hi'
      rw [e1] at hs
      rw [e2, e3]
      obtain ⟨k1, hk1⟩ := finish_append (extS S mixed s n).1 ((extS S mixed s n).2.1 :: (extL S mixed ss (extS S mixed s n).2.2).1) k
      obtain ⟨k2, hk2⟩ := finish_append [(extS S mixed s n).2.1] (extL S mixed ss (extS S mixed s n).2.2).1 k1
      have g := extS_good s hs.1 n
      rw [hk1, show ∀ (x : Stmt K) l, x :: l = [x] ++ l from fun _ _ => rfl, hk2, ← List.append_assoc, execL_app, execL_cons]
      refine Sim.andThen ?_ fun E E' h => (extL_good ss hs.2 _ k2 E E' h).weaken fun h => ?_
      · rw [execL_app, finish_inits _ _ g.inits]
        refine Sim.trans ?_ ((exec_src s hs.1 E E' h).weaken fun _ => rfl)
        rcases h1 : execL S F N (extS S mixed s n).1 E' with _ | ⟨E1, r⟩
        · refine ⟨fun _ _ h => (by cases h), fun hb hx => ?_⟩
          simp only [Bool.and_eq_true] at hb
          obtain ⟨E1, h2⟩ := g.runs hb.1 E' hx
          rw [h1] at h2; cases h2
        · obtain ⟨rfl, -, h3⟩ := g.out E' E1 r h1
          refine ((finish_sim s hs.1 n k1 E1).weaken fun _ => rfl).trans ((h3 E1 AgreeB.rfl').weaken fun hb => ?_)
          simp only [Bool.and_eq_true] at hb; exact hb.1
      · simp only [Bool.and_eq_true] at h; exact h.2
end

end Verif.Sugar
