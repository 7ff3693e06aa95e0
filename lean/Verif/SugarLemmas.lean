import Verif.Sugar
import Mathlib.Order.Nat

set_option linter.unusedSimpArgs false
set_option linter.unusedVariables false
set_option linter.unusedSectionVars false

namespace Verif.Sugar

variable {K : Type}

/-! ## Names -/

mutual
/-- All names of an expression satisfy `P`. -/
def usesE (P : Name → Prop) : Expr K → Prop
  | .num _ => True
  | .var _ x acc => P x ∧ usesAs P acc
  | .infix _ l r => usesE P l ∧ usesE P r
  | .pre _ e => usesE P e
  | .call _ _ args => usesEs P args
  | .switch _ c a b => usesE P c ∧ usesE P a ∧ usesE P b
  | .arr _ vs => usesEs P vs
  | .uni _ v _ => usesE P v

/-- A list. -/
def usesEs (P : Name → Prop) : List (Expr K) → Prop
  | [] => True
  | e :: es => usesE P e ∧ usesEs P es

/-- Accesses. -/
def usesAs (P : Name → Prop) : List (Acc K) → Prop
  | [] => True
  | a :: as => usesA P a ∧ usesAs P as

/-- One access. -/
def usesA (P : Name → Prop) : Acc K → Prop
  | .idx e => usesE P e
  | .fld _ => True
end

mutual
theorem usesE.imp {P Q : Name → Prop} (h : ∀ x, P x → Q x) (e : Expr K) (he : usesE P e) : usesE Q e := by
  match e with
  | .num _ => trivial
  | .var _ x acc => exact ⟨h x he.1, usesAs.imp h acc he.2⟩
  | .infix _ l r => exact ⟨usesE.imp h l he.1, usesE.imp h r he.2⟩
  | .pre _ e => exact usesE.imp h e he
  | .call _ _ args => exact usesEs.imp h args he
  | .switch _ c a b => exact ⟨usesE.imp h c he.1, usesE.imp h a he.2.1, usesE.imp h b he.2.2⟩
  | .arr _ vs => exact usesEs.imp h vs he
  | .uni _ v _ => exact usesE.imp h v he

theorem usesEs.imp {P Q : Name → Prop} (h : ∀ x, P x → Q x) (es : List (Expr K)) (he : usesEs P es) : usesEs Q es := by
  match es with
  | [] => trivial
  | e :: es => exact ⟨usesE.imp h e he.1, usesEs.imp h es he.2⟩

theorem usesAs.imp {P Q : Name → Prop} (h : ∀ x, P x → Q x) (es : List (Acc K)) (he : usesAs P es) : usesAs Q es := by
  match es with
  | [] => trivial
  | e :: es => exact ⟨usesA.imp h e he.1, usesAs.imp h es he.2⟩

theorem usesA.imp {P Q : Name → Prop} (h : ∀ x, P x → Q x) (a : Acc K) (he : usesA P a) : usesA Q a := by
  match a with
  | .idx e => exact usesE.imp h e he
  | .fld _ => trivial
end

/-- Names of the source and temporaries with smaller numbers. -/
def below (n : Nat) : Name → Prop
  | .src _ => True
  | .auto k => k < n
  | .ret _ => False

theorem below.mono {n m : Nat} (h : n ≤ m) : ∀ x, below n x → below m x
  | .src _, _ => trivial
  | .auto k, hk => Nat.lt_of_lt_of_le hk h
  | .ret _, hk => hk

/-- Agreement on these names. -/
def AgreeB (n : Nat) (E E' : Env K) : Prop := ∀ x, below n x → E x = E' x

theorem AgreeB.rfl' {n : Nat} {E : Env K} : AgreeB n E E := fun _ _ => rfl

theorem AgreeB.symm {n : Nat} {E E' : Env K} (h : AgreeB n E E') : AgreeB n E' E := fun x hx => (h x hx).symm

theorem AgreeB.trans {n : Nat} {E E' E'' : Env K} (h : AgreeB n E E') (h' : AgreeB n E' E'') : AgreeB n E E'' :=
  fun x hx => (h x hx).trans (h' x hx)

theorem AgreeB.mono {n m : Nat} (hnm : n ≤ m) {E E' : Env K} (h : AgreeB m E E') : AgreeB n E E' :=
  fun x hx => h x (below.mono hnm x hx)

theorem put_same (E : Env K) (x : Name) (v : Val K) : E.put x v x = v := by simp [Env.put]

theorem put_ne {E : Env K} {x y : Name} {v : Val K} (h : y ≠ x) : E.put x v y = E y := by simp [Env.put, h]

theorem put_self (E : Env K) (x : Name) : E.put x (E x) = E := by
  funext y; unfold Env.put; split
  · rename_i h; rw [h]
  · rfl

theorem put_put (E : Env K) (x : Name) (v w : Val K) : (E.put x v).put x w = E.put x w := by
  funext y; unfold Env.put; split <;> rfl

theorem AgreeB.put_auto {n k : Nat} {E E' : Env K} {v : Val K} (h : AgreeB n E E') (hk : n ≤ k) : AgreeB n E (E'.put (.auto k) v) := by
  intro x hx
  rw [h x hx, put_ne]
  rintro rfl
  exact absurd hx (by simp [below]; omega)

/-! ## Evaluation depends on the names that occur -/

section
variable (S : Sem K) (F : Fns K) {P : Name → Prop} {E E' : Env K} (hE : ∀ x, P x → E x = E' x)
include hE

mutual
theorem eval_congr (e : Expr K) (he : usesE P e) : eval S F E e = eval S F E' e := by
  match e with
  | .num _ => rfl
  | .var _ x acc => simp only [eval, path_congr acc he.2, hE x he.1]
  | .infix _ l r => simp only [eval, eval_congr l he.1, eval_congr r he.2]
  | .pre _ e => simp only [eval, eval_congr e he]
  | .call _ _ args => simp only [eval, evalL_congr args he]
  | .switch _ c a b => simp only [eval, eval_congr c he.1, eval_congr a he.2.1, eval_congr b he.2.2]
  | .arr _ vs => simp only [eval, evalL_congr vs he]
  | .uni _ v _ => simp only [eval, eval_congr v he]

theorem evalL_congr (es : List (Expr K)) (he : usesEs P es) : evalL S F E es = evalL S F E' es := by
  match es with
  | [] => rfl
  | e :: es => simp only [evalL, eval_congr e he.1, evalL_congr es he.2]

theorem path_congr (as : List (Acc K)) (he : usesAs P as) : path S F E as = path S F E' as := by
  match as with
  | [] => rfl
  | a :: as => simp only [path, access_congr a he.1, path_congr as he.2]

theorem access_congr (a : Acc K) (he : usesA P a) : access S F E a = access S F E' a := by
  match a with
  | .idx e => simp only [access, eval_congr e he]
  | .fld _ => rfl
end

theorem cond_congr (e : Expr K) (he : usesE P e) : cond S F E e = cond S F E' e := by
  simp only [cond, eval_congr S F hE e he]
end

theorem map_eval_congr {S : Sem K} (F : Fns K) {P : Name → Prop} {E E' : Env K} (hE : ∀ x, P x → E x = E' x) :
    ∀ es : List (Expr K), usesEs P es → es.map (eval S F E) = es.map (eval S F E')
  | [], _ => rfl
  | e :: es, h => by rw [List.map_cons, List.map_cons, eval_congr S F hE e h.1, map_eval_congr F hE es h.2]

theorem map_access_congr {S : Sem K} (F : Fns K) {P : Name → Prop} {E E' : Env K} (hE : ∀ x, P x → E x = E' x) :
    ∀ es : List (Acc K), usesAs P es → es.map (access S F E) = es.map (access S F E')
  | [], _ => rfl
  | e :: es, h => by rw [List.map_cons, List.map_cons, access_congr S F hE e h.1, map_access_congr F hE es h.2]

/-- Pointwise equal observations. -/
theorem evalL_map (S : Sem K) (F : Fns K) {E E' : Env K} : ∀ (es es' : List (Expr K)),
    es.map (eval S F E) = es'.map (eval S F E') → evalL S F E es = evalL S F E' es'
  | [], [], _ => rfl
  | [], _ :: _, h => by simp at h
  | _ :: _, [], h => by simp at h
  | e :: es, e' :: es', h => by
    simp only [List.map_cons, List.cons.injEq] at h
    simp only [evalL, h.1, evalL_map S F es es' h.2]

theorem path_map (S : Sem K) (F : Fns K) {E E' : Env K} : ∀ (es es' : List (Acc K)),
    es.map (access S F E) = es'.map (access S F E') → path S F E es = path S F E' es'
  | [], [], _ => rfl
  | [], _ :: _, h => by simp at h
  | _ :: _, [], h => by simp at h
  | e :: es, e' :: es', h => by
    simp only [List.map_cons, List.cons.injEq] at h
    simp only [path, h.1, path_map S F es es' h.2]

theorem evalL_some (S : Sem K) (F : Fns K) {E : Env K} : ∀ (es : List (Expr K)) ,
    (evalL S F E es).isSome ↔ ∀ e ∈ es, (eval S F E e).isSome
  | [] => by simp [evalL]
  | e :: es => by
    simp only [evalL, List.mem_cons, forall_eq_or_imp]
    rw [← evalL_some S F es]
    rcases eval S F E e with _ | v
    · simp
    · rcases evalL S F E es with _ | vs <;> simp

/-! ## Dimensions -/

mutual
/-- The recorded dimensions are right: of a literal those of its elements, of a conditional expression those of the branches. -/
def wfE : Expr K → Prop
  | .num _ => True
  | .var _ _ acc => wfAs acc
  | .infix _ l r => wfE l ∧ wfE r
  | .pre _ e => wfE e
  | .call _ _ args => wfEs args
  | .switch d c a b => wfE c ∧ wfE a ∧ wfE b ∧ dims a = d ∧ dims b = d
  | .arr d vs => wfEs vs ∧ (∃ ds, d = vs.length :: ds ∧ ∀ v ∈ vs, dims v = ds)
  | .uni d v n => wfE v ∧ d = n :: dims v ∧ n ≠ 0

/-- A list. -/
def wfEs : List (Expr K) → Prop
  | [] => True
  | e :: es => wfE e ∧ wfEs es

/-- Accesses. -/
def wfAs : List (Acc K) → Prop
  | [] => True
  | a :: as => wfA a ∧ wfAs as

/-- One access. -/
def wfA : Acc K → Prop
  | .idx e => wfE e
  | .fld _ => True
end

theorem checked_some {d : List Nat} {x : Option (Val K)} {v : Val K} : checked d x = some v ↔ x = some v ∧ fits d v = true := by
  unfold checked
  cases x with
  | none => simp
  | some w =>
    simp only
    split
    · simp only [Option.some.injEq]; constructor
      · rintro rfl; exact ⟨rfl, by assumption⟩
      · exact fun h => h.1
    · simp only [Option.some.injEq, reduceCtorEq, false_iff, not_and]
      rintro rfl; assumption

theorem fits_of_checked {d : List Nat} {x : Option (Val K)} {v : Val K} (h : checked d x = some v) : fits d v = true :=
  (checked_some.1 h).2

/-- Values have the dimensions recorded. -/
theorem eval_fits (S : Sem K) (F : Fns K) (E : Env K) (e : Expr K) (v : Val K) (h : eval S F E e = some v) : fits (dims e) v = true := by
  match e with
  | .num _ => simp only [eval, Option.some.injEq] at h; subst h; rfl
  | .var d x acc =>
    rw [eval] at h
    split at h
    · cases h
    · exact fits_of_checked h
  | .infix op l r =>
    rw [eval] at h
    split at h
    · simp only [Option.map_eq_some_iff] at h
      obtain ⟨a, -, rfl⟩ := h; rfl
    · cases h
  | .pre op e =>
    rw [eval] at h
    split at h
    · simp only [Option.map_eq_some_iff] at h
      obtain ⟨a, -, rfl⟩ := h; rfl
    · cases h
  | .call d f args =>
    rw [eval] at h
    split at h
    · cases h
    · exact fits_of_checked h
  | .switch d c a b =>
    rw [eval] at h
    split at h
    · exact fits_of_checked h
    · cases h
  | .arr d vs =>
    rw [eval] at h
    split at h
    · cases h
    · exact fits_of_checked h
  | .uni d v n =>
    rw [eval] at h
    split at h
    · cases h
    · exact fits_of_checked h

mutual
theorem over_blank (d : List Nat) (v : Val K) (h : fits d v = true) : over (blank d) v = some v := by
  match d, v with
  | [], .num _ => rfl
  | d :: ds, .arr [] =>
    simp only [fits, List.length_nil, Bool.and_eq_true, decide_eq_true_eq] at h
    rw [← h.1]; rfl
  | d :: ds, .arr (v :: vs) =>
    simp only [fits, Bool.and_eq_true, decide_eq_true_eq] at h
    rw [← h.1, blank, over, overL_blank ds (v :: vs) h.2]; rfl
  | [], .arr _ => simp [fits] at h
  | [], .undef => simp [fits] at h
  | _ :: _, .num _ => simp [fits] at h
  | _ :: _, .undef => simp [fits] at h
  termination_by (sizeOf v, 0)

theorem overL_blank (d : List Nat) (vs : List (Val K)) (h : fitsL d vs = true) :
    overL (List.replicate vs.length (blank d)) vs = some vs := by
  match vs with
  | [] => rfl
  | v :: vs =>
    simp only [fitsL, Bool.and_eq_true] at h
    rw [List.length_cons, List.replicate_succ, overL, over_blank d v h.1, overL_blank d vs h.2]
  termination_by (sizeOf vs, 1)
end

/-! ## Sequences of statements -/

theorem execL_append (S : Sem K) (F : Fns K) (n : Nat) : ∀ (a b : List (Stmt K)) (E : Env K),
    execL S F n (a ++ b) E =
      match execL S F n a E with
      | none => none
      | some (E', some r) => some (E', some r)
      | some (E', none) => execL S F n b E'
  | [], b, E => by simp [execL]
  | s :: a, b, E => by
    simp only [List.cons_append, execL]
    rcases exec S F n s E with _ | ⟨E', _ | r⟩
    · rfl
    · simp only [execL_append S F n a b E']
    · rfl

/-- What running statements in front of an expression or statement does: the observation made on the new text afterwards is the one
made on the old text before. -/
structure Good {α : Type} (S : Sem K) (F : Fns K) (N : Nat) (n : Nat) (is : List (Stmt K)) (n' : Nat) (obs' obs : Env K → α)
    (need : Env K → Prop) : Prop where
  le : n ≤ n'
  out : ∀ E0 E1 r, execL S F N is E0 = some (E1, r) → r = none ∧ AgreeB n E0 E1 ∧ ∀ E3, AgreeB n' E1 E3 → obs' E3 = obs E0
  runs : ∀ E0, need E0 → ∃ E1, execL S F N is E0 = some (E1, none)

section
variable {S : Sem K} {F : Fns K} {N : Nat} {α β : Type}

theorem Good.map {n n' : Nat} {is : List (Stmt K)} {f' f : Env K → α} {need : Env K → Prop} (h : Good S F N n is n' f' f need)
    (g' g : Env K → β) (need' : Env K → Prop) (hn : ∀ E, need' E → need E) (hg : ∀ E3 E0, f' E3 = f E0 → g' E3 = g E0) :
    Good S F N n is n' g' g need' :=
  ⟨h.le, fun E0 E1 r he => ⟨(h.out E0 E1 r he).1, (h.out E0 E1 r he).2.1, fun E3 h3 => hg _ _ ((h.out E0 E1 r he).2.2 E3 h3)⟩,
    fun E0 h0 => h.runs E0 (hn E0 h0)⟩

theorem Good.nil (n : Nat) (f' f : Env K → α) (hf : ∀ E E', AgreeB n E E' → f' E' = f E) : Good S F N n [] n f' f (fun _ => True) :=
  ⟨le_refl _, fun E0 E1 r he => by
    simp only [execL, Option.some.injEq, Prod.mk.injEq] at he
    obtain ⟨rfl, rfl⟩ := he
    exact ⟨rfl, AgreeB.rfl', fun E3 h3 => hf _ _ h3⟩, fun E0 _ => ⟨E0, rfl⟩⟩

theorem Good.seq {n n1 n2 : Nat} {is js : List (Stmt K)} {f' f : Env K → α} {g' g : Env K → β} {nf ng : Env K → Prop}
    (h : Good S F N n is n1 f' f nf) (k : Good S F N n1 js n2 g' g ng) (hg : ∀ E E', AgreeB 0 E E' → g E = g E')
    (hng : ∀ E E', AgreeB 0 E E' → ng E → ng E') :
    Good S F N n (is ++ js) n2 (fun E => (f' E, g' E)) (fun E => (f E, g E)) (fun E => nf E ∧ ng E) := by
  refine ⟨le_trans h.le k.le, fun E0 E2 r he => ?_, fun E0 h0 => ?_⟩
  · rw [execL_append] at he
    rcases hq : execL S F N is E0 with _ | ⟨E1, r1⟩
    · rw [hq] at he; cases he
    · obtain ⟨rfl, a1, a2⟩ := h.out E0 E1 r1 hq
      rw [hq] at he
      obtain ⟨rfl, b1, b2⟩ := k.out E1 E2 r he
      refine ⟨rfl, a1.trans (b1.mono h.le), fun E3 h3 => ?_⟩
      simp only [Prod.mk.injEq]
      refine ⟨a2 E3 (b1.trans (h3.mono k.le)), ?_⟩
      rw [b2 E3 h3]
      exact (hg _ _ (a1.mono (Nat.zero_le _))).symm
  · obtain ⟨E1, h1⟩ := h.runs E0 h0.1
    obtain ⟨-, a1, -⟩ := h.out E0 E1 none h1
    obtain ⟨E2, h2⟩ := k.runs E1 (hng _ _ (a1.mono (Nat.zero_le _)) h0.2)
    exact ⟨E2, by rw [execL_append, h1]; exact h2⟩

/-- Running the two statements of a temporary. -/
theorem newInit_run (n : Nat) (e : Expr K) (E : Env K) :
    execL S F N (newInit n e) E =
      match eval S F (E.put (.auto n) (blank (dims e))) e with
      | none => none
      | some v => some (E.put (.auto n) v, none) := by
  simp only [newInit, execL, exec, path]
  rcases hv : eval S F (E.put (.auto n) (blank (dims e))) e with _ | v
  · rfl
  · have := over_blank (dims e) v (eval_fits S F _ e v hv)
    simp only [store, put_same, this, put_put]

theorem eval_newVar (n : Nat) (e : Expr K) (E : Env K) (v : Val K) (hf : fits (dims e) v = true) (h : E (.auto n) = v) :
    eval S F E (newVar n e) = some v := by
  simp [newVar, eval, path, fetch, h, checked, hf]

/-- Taking an expression out. -/
theorem Good.extract {n n1 : Nat} {is : List (Stmt K)} {f' f : Env K → α} {w : Env K → Option (Val K)} {need : Env K → Prop}
    {e : Expr K} (h : Good S F N n is n1 (fun E => (f' E, eval S F E e)) (fun E => (f E, w E)) need) :
    Good S F N n (is ++ newInit n1 e) (n1 + 1) (fun E => (f' E, eval S F E (newVar n1 e))) (fun E => (f E, w E))
      (fun E => need E ∧ (w E).isSome) := by
  have key : ∀ E0 E1, execL S F N is E0 = some (E1, none) → AgreeB n E0 E1 ∧
      (∀ E3, AgreeB n1 E1 E3 → f' E3 = f E0 ∧ eval S F E3 e = w E0) := by
    intro E0 E1 hq
    obtain ⟨-, a1, a2⟩ := h.out E0 E1 none hq
    exact ⟨a1, fun E3 h3 => by simpa using a2 E3 h3⟩
  refine ⟨le_trans h.le (Nat.le_succ _), fun E0 E2 r he => ?_, fun E0 h0 => ?_⟩
  · rw [execL_append] at he
    rcases hq : execL S F N is E0 with _ | ⟨E1, r1⟩
    · rw [hq] at he; cases he
    · obtain ⟨rfl, -, -⟩ := h.out E0 E1 r1 hq
      obtain ⟨a1, a2⟩ := key E0 E1 hq
      rw [hq] at he
      simp only [newInit_run] at he
      have h1 := (a2 _ (AgreeB.rfl'.put_auto (le_refl n1) (v := blank (dims e)))).2
      rcases hv : eval S F (E1.put (.auto n1) (blank (dims e))) e with _ | v
      · rw [hv] at he; cases he
      · rw [hv] at he h1
        simp only [Option.some.injEq, Prod.mk.injEq] at he
        obtain ⟨rfl, rfl⟩ := he
        refine ⟨rfl, a1.put_auto h.le, fun E3 h3 => ?_⟩
        have h4 : AgreeB n1 E1 E3 := (AgreeB.rfl'.put_auto (le_refl n1)).trans (h3.mono (Nat.le_succ _))
        simp only [Prod.mk.injEq]
        refine ⟨(a2 E3 h4).1, ?_⟩
        rw [← h1]
        refine eval_newVar n1 e E3 v (eval_fits S F _ e v hv) ?_
        rw [← h3 (.auto n1) (Nat.lt_succ_self n1), put_same]
  · obtain ⟨E1, h1⟩ := h.runs E0 h0.1
    obtain ⟨a1, a2⟩ := key E0 E1 h1
    obtain ⟨v, hv⟩ := Option.isSome_iff_exists.1 h0.2
    have h2 := (a2 _ (AgreeB.rfl'.put_auto (le_refl n1) (v := blank (dims e)))).2
    refine ⟨E1.put (.auto n1) v, ?_⟩
    rw [execL_append, h1]
    simp only [newInit_run, h2, hv]

theorem Good.filter1 {n n1 : Nat} {is : List (Stmt K)} {f' f : Env K → α} {w : Env K → Option (Val K)} {need : Env K → Prop}
    {e : Expr K} (h : Good S F N n is n1 (fun E => (f' E, eval S F E e)) (fun E => (f E, w E)) need) :
    Good S F N n (is ++ (filter1 e n1).1) (filter1 e n1).2.2 (fun E => (f' E, eval S F E (Sugar.filter1 e n1).2.1))
      (fun E => (f E, w E)) (fun E => need E ∧ (w E).isSome) := by
  unfold Sugar.filter1
  split
  · exact h.extract
  · simp only [List.append_nil]
    exact h.map _ _ _ (fun E hE => hE.1) (fun _ _ h => h)

theorem Good.filter : ∀ {α : Type} (es : List (Expr K)) {n n1 : Nat} {is : List (Stmt K)} {f' f : Env K → α} {w : Env K → List (Option (Val K))}
    {need : Env K → Prop}
    (h : Good S F N n is n1 (fun E => (f' E, es.map (eval S F E))) (fun E => (f E, w E)) need),
    Good S F N n (is ++ (Sugar.filter es n1).1) (Sugar.filter es n1).2.2
      (fun E => (f' E, (Sugar.filter es n1).2.1.map (eval S F E))) (fun E => (f E, w E))
      (fun E => need E ∧ ∀ x ∈ w E, x.isSome)
  | _, [], n, n1, is, f', f, w, need, h => by
    simp only [Sugar.filter, List.append_nil]
    exact h.map _ _ _ (fun E hE => hE.1) (fun _ _ h => h)
  | _, e :: es, n, n1, is, f', f, w, need, h => by
    have h' : Good S F N n is n1 (fun E => ((f' E, es.map (eval S F E)), eval S F E e))
        (fun E => ((f E, (w E).tail), ((w E).head?.getD none))) need := by
      refine h.map _ _ _ (fun E hE => hE) (fun E3 E0 hq => ?_)
      simp only [Prod.mk.injEq] at hq ⊢
      rw [← hq.2]; simp [hq.1]
    unfold Sugar.filter
    split
    · have h1 := h'.extract
      have h2 : Good S F N n (is ++ newInit n1 e) (n1 + 1) (fun E => ((f' E, eval S F E (newVar n1 e)), es.map (eval S F E)))
          (fun E => ((f E, ((w E).head?.getD none)), (w E).tail)) (fun E => need E ∧ ((w E).head?.getD none).isSome) :=
        h1.map _ _ _ (fun E hE => hE) (fun E3 E0 hq => by simp only [Prod.mk.injEq] at hq ⊢; exact ⟨⟨hq.1.1, hq.2⟩, hq.1.2⟩)
      have h3 := Good.filter es h2
      rw [← List.append_assoc]
      refine ⟨h3.le, fun E0 E1 r he => ?_, fun E0 h0 => ?_⟩
      · obtain ⟨a, b, c⟩ := h3.out E0 E1 r he
        refine ⟨a, b, fun E3 hE3 => ?_⟩
        have := c E3 hE3
        simp only [Prod.mk.injEq] at this ⊢
        refine ⟨this.1.1, ?_⟩
        rw [List.map_cons, this.1.2, this.2]
        -- the list of observations is not empty
        have hne : ∃ E, (w E0) = eval S F E e :: es.map (eval S F E) := by
          rw [execL_append, execL_append] at he
          rcases hq : execL S F N is E0 with _ | ⟨E1', r1⟩
          · rw [hq] at he; cases he
          · obtain ⟨rfl, -, q⟩ := h.out E0 E1' r1 hq
            have := q E1' AgreeB.rfl'
            simp only [Prod.mk.injEq] at this
            exact ⟨E1', this.2.symm⟩
        obtain ⟨E, hw⟩ := hne
        rw [hw]; rfl
      · refine h3.runs E0 ⟨⟨h0.1, ?_⟩, fun x hx => h0.2 x (List.mem_of_mem_tail hx)⟩
        obtain ⟨E1, h1'⟩ := h.runs E0 h0.1
        obtain ⟨-, -, q⟩ := h.out E0 E1 none h1'
        have := q E1 AgreeB.rfl'
        simp only [Prod.mk.injEq] at this
        rw [← this.2]
        simp only [List.map_cons, List.head?_cons, Option.getD_some]
        exact h0.2 _ (by rw [← this.2]; simp)
    · have h2 : Good S F N n is n1 (fun E => ((f' E, eval S F E e), es.map (eval S F E)))
          (fun E => ((f E, ((w E).head?.getD none)), (w E).tail)) need :=
        h'.map _ _ _ (fun E hE => hE) (fun E3 E0 hq => by simp only [Prod.mk.injEq] at hq ⊢; exact ⟨⟨hq.1.1, hq.2⟩, hq.1.2⟩)
      have h3 := Good.filter es h2
      refine ⟨h3.le, fun E0 E1 r he => ?_, fun E0 h0 => ?_⟩
      · obtain ⟨a, b, c⟩ := h3.out E0 E1 r he
        refine ⟨a, b, fun E3 hE3 => ?_⟩
        have := c E3 hE3
        simp only [Prod.mk.injEq] at this ⊢
        refine ⟨this.1.1, ?_⟩
        rw [List.map_cons, this.1.2, this.2]
        have hne : ∃ E, (w E0) = eval S F E e :: es.map (eval S F E) := by
          rw [execL_append] at he
          rcases hq : execL S F N is E0 with _ | ⟨E1', r1⟩
          · rw [hq] at he; cases he
          · obtain ⟨rfl, -, q⟩ := h.out E0 E1' r1 hq
            have := q E1' AgreeB.rfl'
            simp only [Prod.mk.injEq] at this
            exact ⟨E1', this.2.symm⟩
        obtain ⟨E, hw⟩ := hne
        rw [hw]; rfl
      · exact h3.runs E0 ⟨h0.1, fun x hx => h0.2 x (List.mem_of_mem_tail hx)⟩
end

end Verif.Sugar
