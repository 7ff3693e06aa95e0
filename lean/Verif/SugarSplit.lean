import Verif.SugarNames

set_option linter.unusedSimpArgs false
set_option linter.unusedVariables false
set_option linter.unusedSectionVars false

namespace Verif.Sugar

variable {K : Type} {S : Sem K} {F : Fns K} {N : Nat} {mixed : Name → Bool}

/-! ## Element by element -/

/-- Assignments to the elements number `i`, `i + 1`, … of what is at a position. -/
def storeAll (p : List Nat) : Nat → List (Val K) → Val K → Option (Val K)
  | _, [], old => some old
  | i, w :: ws, old =>
    match store (p ++ [i]) old w with
    | none => none
    | some o => storeAll p (i + 1) ws o

theorem storeAll_top : ∀ (ws pre os : List (Val K)),
    storeAll [] pre.length ws (.arr (pre ++ os)) = (overL os ws).map (fun t => .arr (pre ++ t))
  | [], pre, os => by cases os <;> simp [storeAll, overL]
  | w :: ws, pre, [] => by simp [storeAll, overL, store]
  | w :: ws, pre, o :: os => by
    have ih := fun o' => storeAll_top ws (pre ++ [o']) os
    simp only [storeAll, List.nil_append, store, overL]
    rw [List.getElem?_append_right (le_refl _)]
    simp only [Nat.sub_self, List.getElem?_cons_zero]
    rcases over o w with _ | o'
    · rfl
    · simp only
      have h1 : (pre ++ o :: os).set pre.length o' = (pre ++ [o']) ++ os := by simp
      have h2 : pre.length + 1 = (pre ++ [o']).length := by simp
      rw [h1, h2, ih o']
      rcases overL os ws with _ | t <;> simp

theorem storeAll_inner (j : Nat) (p : List Nat) : ∀ (ws : List (Val K)) (i : Nat) (os : List (Val K)) (o : Val K), os[j]? = some o →
    storeAll (j :: p) i ws (.arr os) = (storeAll p i ws o).map (fun o' => .arr (os.set j o'))
  | [], i, os, o, h => by
    obtain ⟨hj, rfl⟩ := List.getElem?_eq_some_iff.1 h
    simp [storeAll]
  | w :: ws, i, os, o, h => by
    obtain ⟨hj, -⟩ := List.getElem?_eq_some_iff.1 h
    simp only [storeAll, List.cons_append, store, h]
    rcases store (p ++ [i]) o w with _ | o1
    · rfl
    · simp only
      rw [storeAll_inner j p ws (i + 1) (os.set j o1) o1 (by simp [hj])]
      rcases storeAll p (i + 1) ws o1 with _ | o2 <;> simp

/-- Assigning the elements one after the other is assigning the array. -/
theorem storeAll_eq : ∀ (p : List Nat) (ws : List (Val K)) (old : Val K), ws ≠ [] → storeAll p 0 ws old = store p old (.arr ws)
  | [], ws, old, h => by
    obtain ⟨w, ws, rfl⟩ := List.exists_cons_of_ne_nil h
    cases old with
    | arr os =>
      have := storeAll_top (w :: ws) [] os
      simp only [List.length_nil, List.nil_append] at this
      simp only [this, store, over]
    | num _ => simp [storeAll, store, over]
    | undef => simp [storeAll, store, over]
  | j :: p, ws, old, h => by
    cases old with
    | arr os =>
      simp only [store]
      rcases ho : os[j]? with _ | o
      · obtain ⟨w, ws, rfl⟩ := List.exists_cons_of_ne_nil h
        simp only [storeAll, List.cons_append, store, ho]
      · rw [storeAll_inner j p ws 0 os o ho, storeAll_eq p ws o h]
        simp only
        rcases store p o (.arr ws) with _ | o2 <;> simp
    | num _ =>
      obtain ⟨w, ws, rfl⟩ := List.exists_cons_of_ne_nil h
      simp [storeAll, store]
    | undef =>
      obtain ⟨w, ws, rfl⟩ := List.exists_cons_of_ne_nil h
      simp [storeAll, store]

theorem path_snoc (E : Env K) (i : Nat) : ∀ acc : List (Acc K), path S F E (acc ++ [.fld i]) = (path S F E acc).map (· ++ [i])
  | [] => by simp [path, access]
  | a :: acc => by
    simp only [List.cons_append, path, path_snoc E i acc]
    rcases access S F E a with _ | j
    · rfl
    · rcases path S F E acc with _ | p <;> simp

theorem exec_elems (x : Name) (acc : List (Acc K)) (E : Env K) (p : List Nat) (hp : path S F E acc = some p)
    (ha : usesAs (· ≠ x) acc) : ∀ (vs : List (Expr K)) (i : Nat) (o : Val K), usesEs (· ≠ x) vs →
    execL S F N (elems x acc i vs) (E.put x o) =
      match evalL S F E vs with
      | none => none
      | some ws =>
        match storeAll p i ws o with
        | none => none
        | some w => some (E.put x w, none)
  | [], i, o, _ => by simp [elems, execL, evalL, storeAll]
  | v :: vs, i, o, hv => by
    have hE : ∀ y, y ≠ x → E.put x o y = E y := fun y hy => put_ne hy
    have h1 : path S F (E.put x o) (acc ++ [.fld i]) = some (p ++ [i]) := by
      rw [path_snoc, path_congr S F hE acc ha, hp]; rfl
    have h2 := eval_congr S F hE v hv.1
    simp only [elems, execL, exec, h1, h2, evalL, put_same, put_put]
    rcases eval S F E v with _ | w
    · rfl
    · simp only
      rcases hs : store (p ++ [i]) o w with _ | o1
      · simp only
        rcases evalL S F E vs with _ | ws
        · rfl
        · simp only [storeAll, hs]
      · simp only
        rw [exec_elems x acc E p hp ha vs (i + 1) o1 hv.2]
        rcases evalL S F E vs with _ | ws
        · rfl
        · simp only [storeAll, hs]

/-! ## Values of literals -/

theorem evalL_fits {ds : List Nat} {E : Env K} : ∀ (vs : List (Expr K)) (ws : List (Val K)), evalL S F E vs = some ws →
    (∀ v ∈ vs, dims v = ds) → ws.length = vs.length ∧ fitsL ds ws = true
  | [], ws, h, _ => by
    simp only [evalL, Option.some.injEq] at h; subst h; simp [fitsL]
  | v :: vs, ws, h, hd => by
    simp only [evalL] at h
    rcases hv : eval S F E v with _ | w
    · rw [hv] at h; cases h
    · rcases hq : evalL S F E vs with _ | us
      · rw [hv, hq] at h; cases h
      · rw [hv, hq] at h
        simp only [Option.some.injEq] at h
        subst h
        obtain ⟨h1, h2⟩ := evalL_fits vs us hq (fun u hu => hd u (by simp [hu]))
        have := eval_fits S F E v w hv
        rw [hd v (by simp)] at this
        simp [fitsL, this, h1, h2]

theorem eval_arr {E : Env K} {d : List Nat} {vs : List (Expr K)} (h : wfE (.arr d vs)) :
    eval S F E (.arr d vs) = (evalL S F E vs).map .arr := by
  obtain ⟨-, ds, rfl, hd⟩ := h
  simp only [eval]
  rcases hq : evalL S F E vs with _ | ws
  · rfl
  · obtain ⟨h1, h2⟩ := evalL_fits vs ws hq hd
    simp [checked, fits, h1, h2]

theorem evalL_replicate {E : Env K} (v : Expr K) : ∀ n : Nat, n ≠ 0 →
    evalL S F E (List.replicate n v) = (eval S F E v).map (List.replicate n)
  | 0, h => absurd rfl h
  | 1, _ => by
    simp only [List.replicate, evalL]
    rcases eval S F E v with _ | w <;> simp
  | n + 2, _ => by
    rw [List.replicate_succ, evalL, evalL_replicate v (n + 1) (by omega)]
    rcases eval S F E v with _ | w
    · rfl
    · simp [List.replicate_succ]

theorem fitsL_replicate (d : List Nat) (w : Val K) (h : fits d w = true) : ∀ n : Nat, fitsL d (List.replicate n w) = true
  | 0 => rfl
  | n + 1 => by simp [List.replicate_succ, fitsL, h, fitsL_replicate d w h n]

theorem eval_uni {E : Env K} {d : List Nat} {v : Expr K} {n : Nat} (h : wfE (.uni d v n)) :
    eval S F E (.uni d v n) = (evalL S F E (List.replicate n v)).map .arr := by
  obtain ⟨-, rfl, hn⟩ := h
  rw [evalL_replicate v n hn]
  simp only [eval]
  rcases hq : eval S F E v with _ | w
  · rfl
  · have := fitsL_replicate (dims v) w (eval_fits S F E v w hq) n
    simp [checked, fits, this]

theorem checked_eval {E : Env K} {e : Expr K} {d : List Nat} (h : dims e = d) : checked d (eval S F E e) = eval S F E e := by
  rcases hq : eval S F E e with _ | w
  · rfl
  · have := eval_fits S F E e w hq
    rw [h] at this
    simp [checked, this]

theorem usesEs_replicate {P : Name → Prop} {v : Expr K} (h : usesE P v) : ∀ n : Nat, usesEs P (List.replicate n v)
  | 0 => trivial
  | n + 1 => ⟨h, usesEs_replicate h n⟩

/-! ## Assignments -/

/-- The elements of a literal do not name the variable assigned, and something is assigned. -/
def apartOk (x : Name) (acc : List (Acc K)) : Expr K → Prop
  | .arr _ vs => (vs = [] → acc = []) ∧ usesAs (· ≠ x) acc ∧ usesEs (· ≠ x) vs
  | .uni _ v _ => usesAs (· ≠ x) acc ∧ usesE (· ≠ x) v
  | _ => True

theorem exec_elems_assign {x : Name} {acc : List (Acc K)} {vs : List (Expr K)} {E : Env K} {e : Expr K}
    (he : eval S F E e = (evalL S F E vs).map .arr) (h0 : vs = [] → acc = []) (ha : usesAs (· ≠ x) acc) (hv : usesEs (· ≠ x) vs) :
    execL S F N (elems x acc 0 vs) E = exec S F N (.assign x acc e) E := by
  cases vs with
  | nil =>
    rw [h0 rfl]
    simp only [evalL, Option.map_some] at he
    simp only [elems, execL, exec, path, he, store, over, put_self]
  | cons v vs =>
    simp only [exec, he]
    rcases hp : path S F E acc with _ | p
    · simp only [elems, execL, exec, path_snoc, hp, Option.map_none]
    · have := exec_elems (S := S) (F := F) (N := N) x acc E p hp ha (v :: vs) 0 (E x) hv
      rw [put_self] at this
      rw [this]
      rcases hq : evalL S F E (v :: vs) with _ | ws
      · rfl
      · simp only [Option.map_some]
        have hne : ws ≠ [] := by
          rintro rfl
          simp only [evalL] at hq
          split at hq
          · simp at hq
          · split at hq <;> simp at hq
        simp only [storeAll_eq p ws (E x) hne]
        rcases store p (E x) (.arr ws) with _ | w <;> rfl

/-- Splitting an assignment keeps what it does. -/
theorem splitSub_assign (x : Name) (acc : List (Acc K)) (e : Expr K) (E : Env K) (hw : wfE e) (h : apartOk x acc e) :
    execL S F N (splitSub (.assign x acc e)) E = exec S F N (.assign x acc e) E := by
  have one : ∀ s : Stmt K, execL S F N [s] E = exec S F N s E := by
    intro s
    simp only [execL]
    rcases exec S F N s E with _ | ⟨E', _ | r⟩ <;> rfl
  cases e with
  | switch d c a b =>
    simp only [splitSub, one, exec, execL]
    obtain ⟨-, -, -, h1, h2⟩ := hw
    simp only [cond, eval]
    rcases eval S F E c with _ | (v | _ | _)
    · rcases path S F E acc with _ | p <;> rfl
    · simp only
      cases S.truthy v
      · simp only [Bool.false_eq_true, if_false, checked_eval h2]
        rcases path S F E acc with _ | p
        · rfl
        · rcases eval S F E b with _ | w
          · rfl
          · simp only
            rcases store p (E x) w with _ | o <;> rfl
      · simp only [if_true, checked_eval h1]
        rcases path S F E acc with _ | p
        · rfl
        · rcases eval S F E a with _ | w
          · rfl
          · simp only
            rcases store p (E x) w with _ | o <;> rfl
    · rcases path S F E acc with _ | p <;> rfl
    · rcases path S F E acc with _ | p <;> rfl
  | arr d vs => exact exec_elems_assign (eval_arr hw) h.1 h.2.1 h.2.2
  | uni d v n =>
    refine exec_elems_assign (eval_uni hw) (fun h0 => ?_) h.1 (usesEs_replicate h.2 n)
    exact absurd (by simpa using congrArg List.length h0) hw.2.2
  | _ => exact one _

theorem elems_noeq (x : Name) (acc : List (Acc K)) : ∀ (vs : List (Expr K)) (i : Nat), (elems x acc i vs).flatMap splitEq = elems x acc i vs
  | [], _ => rfl
  | v :: vs, i => by simp [elems, splitEq, elems_noeq x acc vs (i + 1)]

theorem splitSub_noeq (x : Name) (acc : List (Acc K)) (e : Expr K) :
    (splitSub (.assign x acc e)).flatMap splitEq = splitSub (.assign x acc e) := by
  cases e <;> simp [splitSub, splitEq, elems_noeq]

/-! ## Equalities -/

/-- Is it an inline array? -/
def isArr : Expr K → Bool
  | .arr _ _ => true
  | _ => false

/-- Equalities the pass splits rightly in all environments: no inline array, or two of the same length. -/
def eqOk (l r : Expr K) : Prop :=
  (isArr l = false ∧ isArr r = false) ∨ ∃ d vs d' ws, l = .arr d vs ∧ r = .arr d' ws ∧ vs.length = ws.length

theorem exec_eqElems (E : Env K) : ∀ (vs ws : List (Expr K)), vs.length = ws.length →
    execL S F N (eqElems vs ws) E =
      match evalL S F E vs, evalL S F E ws with
      | some as, some bs => if sameL S.eq as bs then some (E, none) else none
      | _, _ => none
  | [], [], _ => by simp [eqElems, execL, evalL, sameL]
  | [], _ :: _, h => by simp at h
  | _ :: _, [], h => by simp at h
  | v :: vs, w :: ws, h => by
    have ih := exec_eqElems E vs ws (by simpa using h)
    simp only [eqElems, execL, exec, evalL]
    rcases eval S F E v with _ | a
    · rfl
    · rcases eval S F E w with _ | b
      · rcases evalL S F E vs with _ | as <;> rfl
      · by_cases hs : same S.eq a b = true
        · simp only [if_pos hs, ih]
          rcases evalL S F E vs with _ | as
          · rfl
          · rcases evalL S F E ws with _ | bs
            · rfl
            · simp only [sameL, hs, Bool.true_and]
        · simp only [if_neg hs]
          rcases evalL S F E vs with _ | as
          · rfl
          · rcases evalL S F E ws with _ | bs
            · rfl
            · simp only [sameL, hs, Bool.false_and, Bool.false_eq_true, if_false]

mutual
theorem same_comm (eq : K → K → Bool) (h : ∀ a b, eq a b = eq b a) (a b : Val K) : same eq a b = same eq b a := by
  match a, b with
  | .num a, .num b => exact h a b
  | .arr as, .arr bs => exact sameL_comm eq h as bs
  | .num _, .arr _ => rfl
  | .num _, .undef => rfl
  | .arr _, .num _ => rfl
  | .arr _, .undef => rfl
  | .undef, .num _ => rfl
  | .undef, .arr _ => rfl
  | .undef, .undef => rfl
  termination_by (sizeOf a, 0)

theorem sameL_comm (eq : K → K → Bool) (h : ∀ a b, eq a b = eq b a) (as bs : List (Val K)) : sameL eq as bs = sameL eq bs as := by
  match as, bs with
  | [], [] => rfl
  | a :: as, b :: bs => simp only [sameL, same_comm eq h a b, sameL_comm eq h as bs]
  | [], _ :: _ => rfl
  | _ :: _, [] => rfl
  termination_by (sizeOf as, 1)
end

theorem exec_eqc_comm (l r : Expr K) (E : Env K) : exec S F N (.eqc l r) E = exec S F N (.eqc r l) E := by
  simp only [exec]
  rcases eval S F E l with _ | a <;> rcases eval S F E r with _ | b
  · rfl
  · rfl
  · rfl
  · simp only [same_comm S.eq S.eq_comm a b]

theorem fetch_snoc (i : Nat) : ∀ (p : List Nat) (v : Val K), fetch (p ++ [i]) v = (fetch p v).bind (fetch [i])
  | [], v => by simp [fetch]
  | j :: p, .arr vs => by
    simp only [List.cons_append, fetch]
    rcases vs[j]? with _ | v
    · rfl
    · exact fetch_snoc i p v
  | _ :: _, .num _ => by simp [fetch]
  | _ :: _, .undef => by simp [fetch]

/-- The equalities of elements and the elements of what is at a position. -/
theorem exec_eqVars (E : Env K) (d : List Nat) (x : Name) (acc : List (Acc K)) (p : List Nat) (hp : path S F E acc = some p)
    (pre : List (Val K)) : ∀ (vs : List (Expr K)) (bs : List (Val K)) (pre : List (Val K)), vs.length = bs.length →
    fetch p (E x) = some (.arr (pre ++ bs)) →
    execL S F N (eqVars d x acc pre.length vs) E =
      match evalL S F E vs with
      | some as => if fitsL d.tail bs && sameL S.eq as bs then some (E, none) else none
      | none => none
  | [], [], pre, _, _ => by simp [eqVars, execL, evalL, sameL, fitsL]
  | [], _ :: _, _, h, _ => by simp at h
  | _ :: _, [], _, h, _ => by simp at h
  | v :: vs, b :: bs, pre, h, hf => by
    have ih := exec_eqVars E d x acc p hp pre vs bs (pre ++ [b]) (by simpa using h) (by simpa using hf)
    simp only [List.length_append, List.length_cons, List.length_nil, Nat.zero_add] at ih
    have hv : eval S F E (.var d.tail x (acc ++ [.fld pre.length])) = checked d.tail (some b) := by
      simp only [eval, path_snoc, hp, Option.map_some, fetch_snoc, hf, Option.bind_some, fetch]
      rw [List.getElem?_append_right (le_refl _)]
      simp
    simp only [eqVars, execL, exec, evalL, hv, checked]
    rcases eval S F E v with _ | a
    · rfl
    · by_cases hb : fits d.tail b = true
      · by_cases hs : same S.eq a b = true
        · simp only [if_pos hb, if_pos hs, ih]
          simp only [fitsL, hb, Bool.true_and]
          rcases evalL S F E vs with _ | as
          · rfl
          · simp only [sameL, hs, Bool.true_and]
        · simp only [if_pos hb, if_neg hs]
          rcases evalL S F E vs with _ | as
          · rfl
          · simp only [sameL, hs, Bool.false_and, Bool.and_false, Bool.false_eq_true, if_false]
      · simp only [if_neg hb]
        simp only [fitsL, hb, Bool.false_and]
        rcases evalL S F E vs with _ | as
        · rfl
        · simp only [Bool.false_eq_true, if_false]

theorem exec_eqArr (d d' : List Nat) (vs ws : List (Expr K)) (E : Env K) (hl : wfE (.arr d vs)) (hr : wfE (.arr d' ws))
    (h : vs.length = ws.length) : execL S F N (eqElems vs ws) E = exec S F N (.eqc (.arr d vs) (.arr d' ws)) E := by
  simp only [exec, eval_arr hl, eval_arr hr]
  rw [exec_eqElems E vs ws h]
  rcases evalL S F E vs with _ | as
  · rfl
  · rcases evalL S F E ws with _ | bs
    · rfl
    · simp only [Option.map_some]; rfl

/-- An inline array and a variable that has as many elements. -/
theorem exec_eqArr_var (d ds : List Nat) (vs : List (Expr K)) (x : Name) (acc : List (Acc K)) (E : Env K) (hl : wfE (.arr d vs))
    (p : List Nat) (bs : List (Val K)) (hp : path S F E acc = some p) (hf : fetch p (E x) = some (.arr bs))
    (hlen : bs.length = vs.length) :
    execL S F N (eqVars (vs.length :: ds) x acc 0 vs) E = exec S F N (.eqc (.arr d vs) (.var (vs.length :: ds) x acc)) E := by
  have h1 := exec_eqVars (S := S) (F := F) (N := N) E (vs.length :: ds) x acc p hp [] vs bs [] hlen.symm hf
  simp only [List.length_nil] at h1
  rw [h1]
  have h2 : eval S F E (.var (vs.length :: ds) x acc) = checked (vs.length :: ds) (some (.arr bs)) := by
    simp only [eval, hp, hf]
  simp only [exec, eval_arr hl, h2, List.tail_cons]
  by_cases hq : fitsL ds bs = true
  · have h3 : checked (vs.length :: ds) (some (.arr bs)) = some (.arr bs) := by
      simp [checked, fits, hlen, hq]
    rw [h3]
    simp only [hq, Bool.true_and]
    rcases evalL S F E vs with _ | as
    · rfl
    · simp only [Option.map_some]; rfl
  · have h3 : checked (vs.length :: ds) (some (.arr bs)) = none := by
      simp [checked, fits, hlen, hq]
    rw [h3]
    simp only [hq, Bool.false_and, Bool.false_eq_true, if_false]
    rcases evalL S F E vs with _ | as <;> rfl

theorem execL_one (s : Stmt K) (E : Env K) : execL S F N [s] E = exec S F N s E := by
  simp only [execL]
  rcases exec S F N s E with _ | ⟨E', _ | r⟩ <;> rfl

theorem splitEq_exec (l r : Expr K) (E : Env K) (hl : wfE l) (hr : wfE r) (h : eqOk l r) :
    execL S F N (splitEq (.eqc l r)) E = exec S F N (.eqc l r) E := by
  rcases h with ⟨h1, h2⟩ | ⟨d, vs, d', ws, rfl, rfl, h⟩
  · have : splitEq (.eqc l r) = [.eqc l r] := by
      cases l <;> cases r <;> simp [isArr] at h1 h2 <;> rfl
    rw [this, execL_one]
  · exact exec_eqArr d d' vs ws E hl hr h

end Verif.Sugar
