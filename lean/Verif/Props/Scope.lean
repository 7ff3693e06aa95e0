import Verif.Exec

set_option linter.unusedSectionVars false
set_option linter.unusedSimpArgs false

/-!
Property C52: scoping of variables (`program_structure/src/utils/environment.rs`).
-/

namespace Verif.Props.Scope

open Verif.Exec

variable {β : Type}

/-- What happens inside a block: declarations, assignments, inner blocks. -/
inductive Hist (β : Type) where
  | done
  | decl (x : Nat) (v : β) (rest : Hist β)
  | set (x : Nat) (v : β) (rest : Hist β)
  | block (inner rest : Hist β)

/-- The environment after a history: `add_variable`, assignment through `get_mut_variable_mut`,
`add_variable_block` (environment.rs:142-144) and `remove_variable_block` (environment.rs:145-148).
`none`: abort, or assignment to a variable that does not exist. -/
def replay : Hist β → List (List (Nat × β)) → Option (List (List (Nat × β)))
  | .done, env => some env
  | .decl x v h, env =>
    match envAdd env x v with
    | none => none
    | some e => replay h e
  | .set x v h, env =>
    match envSet env x v with
    | none => none
    | some e => replay h e
  | .block i r, env =>
    match replay i ([] :: env) with
    | none => none
    | some e =>
      match e with
      | [] => none
      | _ :: e' => replay r e'

/-- Specification: the value that the variable `x` declared outside of the block has when the block
ends, if it had the value `cur` at its beginning. After a declaration of `x` in the block the outer
variable is out of reach. -/
def escape (x : Nat) : Hist β → Option β → Option β
  | .done, cur => cur
  | .decl y _ h, cur => if y = x then cur else escape x h cur
  | .set y v h, cur => escape x h (if y = x then some v else cur)
  | .block i r, cur => escape x r (escape x i cur)

/-- Specification: the value seen under the name `x` at the end of the block, before it is closed. -/
def visible (x : Nat) : Hist β → Option β → Option β
  | .done, cur => cur
  | .decl y v h, cur => visible x h (if y = x then some v else cur)
  | .set y v h, cur => visible x h (if y = x then some v else cur)
  | .block i r, cur => visible x r (escape x i cur)

theorem blockSet_get {b b' : List (Nat × β)} {x : Nat} {v : β} (h : blockSet b x v = some b') (y : Nat) :
    (blockGet b x).isSome = true ∧ blockGet b' y = if y = x then some v else blockGet b y := by
  induction b generalizing b' with
  | nil => simp [blockSet] at h
  | cons a b ih =>
    obtain ⟨z, u⟩ := a
    simp only [blockSet] at h
    split at h
    · rename_i hz
      injection h with h
      subst h hz
      refine ⟨by simp [blockGet], ?_⟩
      simp only [blockGet]
      by_cases hy : y = z
      · simp [hy]
      · simp [hy, Ne.symm hy]
    · rename_i hz
      cases hb : blockSet b x v with
      | none => rw [hb] at h; cases h
      | some b2 =>
        rw [hb] at h
        injection h with h
        subst h
        obtain ⟨g1, g2⟩ := ih hb
        refine ⟨by simp only [blockGet, if_neg hz]; exact g1, ?_⟩
        simp only [blockGet, g2]
        by_cases hy : z = y
        · subst hy
          simp [hz]
        · simp [hy]

theorem blockSet_none {b : List (Nat × β)} {x : Nat} {v : β} (h : blockSet b x v = none) :
    blockGet b x = none := by
  induction b with
  | nil => rfl
  | cons a b ih =>
    obtain ⟨z, u⟩ := a
    simp only [blockSet] at h
    split at h
    · cases h
    · rename_i hz
      simp only [Option.map_eq_none_iff] at h
      simp [blockGet, hz, ih h]

theorem envSet_get {env env' : List (List (Nat × β))} {x : Nat} {v : β} (h : envSet env x v = some env')
    (y : Nat) : envGet env' y = if y = x then some v else envGet env y := by
  induction env generalizing env' with
  | nil => simp [envSet] at h
  | cons b bs ih =>
    simp only [envSet] at h
    split at h
    · rename_i b' hb
      injection h with h
      subst h
      simp only [envGet, (blockSet_get hb y).2]
      by_cases hy : y = x
      · simp [hy]
      · simp [hy]
    · rename_i hb
      cases hs : envSet bs x v with
      | none => rw [hs] at h; cases h
      | some bs' =>
        rw [hs] at h
        injection h with h
        subst h
        simp only [envGet, ih hs]
        by_cases hy : y = x
        · subst hy
          simp [blockSet_none hb]
        · simp [hy]

/-- The values stored under `x`, level by level. -/
def col (x : Nat) (env : List (List (Nat × β))) : List (Option β) := env.map fun b => blockGet b x

/-- Change of the innermost level that has a value. -/
def upd (f : Option β → Option β) : List (Option β) → List (Option β)
  | [] => []
  | some v :: r => f (some v) :: r
  | none :: r => none :: upd f r

theorem upd_upd (f g : Option β → Option β) (hg : ∀ v, ∃ w, g (some v) = some w) (l : List (Option β)) :
    upd f (upd g l) = upd (fun c => f (g c)) l := by
  induction l with
  | nil => rfl
  | cons a l ih =>
    cases a with
    | none => simp [upd, ih]
    | some v =>
      obtain ⟨w, hw⟩ := hg v
      simp [upd, hw]

theorem escape_some (x : Nat) (h : Hist β) : ∀ v, ∃ w, escape x h (some v) = some w := by
  induction h with
  | done => exact fun v => ⟨v, rfl⟩
  | decl y u h ih =>
    intro v
    simp only [escape]
    split
    · exact ⟨v, rfl⟩
    · exact ih v
  | set y u h ih =>
    intro v
    simp only [escape]
    split
    · exact ih u
    · exact ih v
  | block i r ihi ihr =>
    intro v
    obtain ⟨w, hw⟩ := ihi v
    simp only [escape, hw]
    exact ihr w

theorem envSet_col {env env' : List (List (Nat × β))} {y : Nat} {v : β} (h : envSet env y v = some env')
    (x : Nat) : col x env' = if y = x then upd (fun _ => some v) (col x env) else col x env := by
  induction env generalizing env' with
  | nil => simp [envSet] at h
  | cons b bs ih =>
    simp only [envSet] at h
    split at h
    · rename_i b' hb
      injection h with h
      subst h
      obtain ⟨g1, g2⟩ := blockSet_get hb x
      by_cases hy : y = x
      · subst hy
        obtain ⟨w, hw⟩ := Option.isSome_iff_exists.1 g1
        simp [col, g2, hw, upd]
      · simp [col, g2, hy, Ne.symm hy]
    · rename_i hb
      cases hs : envSet bs y v with
      | none => rw [hs] at h; cases h
      | some bs' =>
        rw [hs] at h
        injection h with h
        subst h
        have := ih hs
        simp only [col] at this
        by_cases hy : y = x
        · subst hy
          simp [col, blockSet_none hb, upd, this]
        · simp [col, hy, this]

/-- Effect of a history on every block around the current one. -/
theorem replay_col (x : Nat) (h : Hist β) : ∀ (b : List (Nat × β)) (bs env' : List (List (Nat × β))),
    replay h (b :: bs) = some env' → ∃ b' bs', env' = b' :: bs' ∧
      col x bs' = if (blockGet b x).isSome then col x bs else upd (escape x h) (col x bs) := by
  have hid : ∀ l : List (Option β), upd (fun c => c) l = l := by
    intro l
    induction l with
    | nil => rfl
    | cons a l ih => cases a <;> simp [upd, ih]
  induction h with
  | done =>
    intro b bs env' hr
    simp only [replay, Option.some.injEq] at hr
    subst hr
    refine ⟨b, bs, rfl, ?_⟩
    have : upd (escape x (Hist.done : Hist β)) (col x bs) = col x bs := hid _
    simp [this]
  | decl y v h ih =>
    intro b bs env' hr
    simp only [replay, envAdd] at hr
    obtain ⟨b', bs', rfl, h2⟩ := ih _ _ _ hr
    refine ⟨b', bs', rfl, ?_⟩
    rw [h2]
    by_cases hy : y = x
    · have : escape x (Hist.decl y v h) = fun c => c := by funext c; simp [escape, hy]
      rw [this, hid]
      simp [blockGet, hy]
    · have : escape x (Hist.decl y v h) = escape x h := by funext c; simp [escape, hy]
      rw [this]
      simp [blockGet, hy]
  | set y v h ih =>
    intro b bs env' hr
    simp only [replay] at hr
    cases hs : envSet (b :: bs) y v with
    | none => rw [hs] at hr; cases hr
    | some e =>
      rw [hs] at hr
      simp only at hr
      have hc := envSet_col hs x
      cases e with
      | nil =>
        exfalso
        by_cases hy : y = x
        · cases hb : blockGet b x <;> simp [col, hy, hb, upd] at hc
        · simp [col, hy] at hc
      | cons b1 bs1 =>
        obtain ⟨b', bs', rfl, h2⟩ := ih _ _ _ hr
        refine ⟨b', bs', rfl, ?_⟩
        rw [h2]
        by_cases hy : y = x
        · have he : escape x (Hist.set y v h) = fun _ => escape x h (some v) := by
            funext c; simp [escape, hy]
          cases hb : blockGet b x with
          | none =>
            simp only [col, List.map_cons, hy, if_true, hb, upd, List.cons.injEq] at hc
            have e2 : col x bs1 = upd (fun _ => some v) (col x bs) := hc.2
            rw [hc.1, e2, he, upd_upd _ _ (fun _ => ⟨v, rfl⟩)]
            simp
          | some w =>
            simp only [col, List.map_cons, hy, if_true, hb, upd, List.cons.injEq] at hc
            have e2 : col x bs1 = col x bs := hc.2
            rw [hc.1, e2]
            simp
        · have he : escape x (Hist.set y v h) = escape x h := by
            funext c; simp [escape, hy]
          simp only [col, List.map_cons, hy, if_false, List.cons.injEq] at hc
          have e2 : col x bs1 = col x bs := hc.2
          rw [hc.1, e2, he]
  | block i r ihi ihr =>
    intro b bs env' hr
    simp only [replay] at hr
    cases hi : replay i ([] :: b :: bs) with
    | none => rw [hi] at hr; cases hr
    | some e =>
      rw [hi] at hr
      obtain ⟨c, cs, rfl, h2⟩ := ihi _ _ _ hi
      simp only at hr
      simp only [blockGet, Option.isSome_none, Bool.false_eq_true, if_false] at h2
      have he : escape x (Hist.block i r) = fun c => escape x r (escape x i c) := rfl
      cases cs with
      | nil => exfalso; cases hb : blockGet b x <;> simp [col, hb, upd] at h2
      | cons d ds =>
        obtain ⟨b', bs', rfl, k2⟩ := ihr _ _ _ hr
        refine ⟨b', bs', rfl, ?_⟩
        rw [k2, he, ← upd_upd _ _ (escape_some x i)]
        cases hb : blockGet b x with
        | none =>
          simp only [col, List.map_cons, hb, upd, List.cons.injEq] at h2
          have e2 : col x ds = upd (escape x i) (col x bs) := h2.2
          rw [h2.1, e2]
          simp
        | some w =>
          simp only [col, List.map_cons, hb, upd, List.cons.injEq] at h2
          have e2 : col x ds = col x bs := h2.2
          obtain ⟨u, hu⟩ := escape_some x i w
          rw [h2.1, e2, hu]
          simp

/-- Effect of a history on the current block and on the ones around it. -/
theorem replay_spec (x : Nat) (h : Hist β) : ∀ (b : List (Nat × β)) (bs env' : List (List (Nat × β))),
    replay h (b :: bs) = some env' → ∃ b' bs', env' = b' :: bs' ∧
      envGet env' x = visible x h (envGet (b :: bs) x) ∧
      envGet bs' x = if (blockGet b x).isSome then envGet bs x else escape x h (envGet bs x) := by
  induction h with
  | done =>
    intro b bs env' hr
    simp only [replay, Option.some.injEq] at hr
    subst hr
    exact ⟨b, bs, rfl, rfl, by simp [escape]⟩
  | decl y v h ih =>
    intro b bs env' hr
    simp only [replay, envAdd] at hr
    obtain ⟨b', bs', rfl, h1, h2⟩ := ih _ _ _ hr
    refine ⟨b', bs', rfl, ?_, ?_⟩
    · rw [h1]
      simp only [visible, envGet, blockGet]
      by_cases hy : y = x <;> simp [hy]
    · rw [h2]
      simp only [blockGet, escape]
      by_cases hy : y = x <;> simp [hy]
  | set y v h ih =>
    intro b bs env' hr
    simp only [replay] at hr
    cases hs : envSet (b :: bs) y v with
    | none => rw [hs] at hr; cases hr
    | some e =>
      rw [hs] at hr
      simp only at hr
      have hget := envSet_get hs x
      simp only [envSet] at hs
      split at hs
      · rename_i b1 hb
        injection hs with hs
        subst hs
        obtain ⟨b', bs', rfl, h1, h2⟩ := ih _ _ _ hr
        refine ⟨b', bs', rfl, ?_, ?_⟩
        · rw [h1, hget]
          by_cases hy : y = x
          · simp [visible, hy]
          · simp [visible, hy, Ne.symm hy]
        · rw [h2]
          obtain ⟨g1, g2⟩ := blockSet_get hb x
          by_cases hy : y = x
          · subst hy
            simp [g1, g2]
          · simp [g2, Ne.symm hy, escape, hy]
      · rename_i hb
        cases hs' : envSet bs y v with
        | none => rw [hs'] at hs; cases hs
        | some bs1 =>
          rw [hs'] at hs
          injection hs with hs
          subst hs
          obtain ⟨b', bs', rfl, h1, h2⟩ := ih _ _ _ hr
          refine ⟨b', bs', rfl, ?_, ?_⟩
          · rw [h1, hget]
            by_cases hy : y = x
            · simp [visible, hy]
            · simp [visible, hy, Ne.symm hy]
          · rw [h2, envSet_get hs' x]
            by_cases hy : y = x
            · subst hy
              simp [blockSet_none hb, escape]
            · simp [Ne.symm hy, hy, escape]
  | block i r ihi ihr =>
    intro b bs env' hr
    simp only [replay] at hr
    cases hi : replay i ([] :: b :: bs) with
    | none => rw [hi] at hr; cases hr
    | some e =>
      rw [hi] at hr
      obtain ⟨c, cs, rfl, _, h2⟩ := ihi _ _ _ hi
      simp only at hr
      simp only [blockGet, Option.isSome_none, Bool.false_eq_true, if_false] at h2
      obtain ⟨c', cs', hcc, hcol⟩ := replay_col x i _ _ _ hi
      injection hcc with e1 e2
      subst e1 e2
      simp only [blockGet, Option.isSome_none, Bool.false_eq_true, if_false] at hcol
      cases cs with
      | nil => exfalso; cases hb : blockGet b x <;> simp [col, hb, upd] at hcol
      | cons d ds =>
        obtain ⟨b', bs', rfl, k1, k2⟩ := ihr _ _ _ hr
        refine ⟨b', bs', rfl, by rw [k1, h2]; rfl, ?_⟩
        rw [k2]
        have first : ∀ e1 e2 : List (List (Nat × β)), col x e1 = col x e2 → envGet e1 x = envGet e2 x := by
          intro e1
          induction e1 with
          | nil =>
            intro e2 h
            cases e2 with
            | nil => rfl
            | cons => simp [col] at h
          | cons p e1 ih =>
            intro e2 h
            cases e2 with
            | nil => simp [col] at h
            | cons q e2 =>
              simp only [col, List.map_cons, List.cons.injEq] at h
              simp only [envGet, h.1, ih e2 h.2]
        cases hb : blockGet b x with
        | none =>
          simp only [envGet, hb] at h2
          simp only [col, List.map_cons, hb, upd, List.cons.injEq] at hcol
          simp only [hcol.1] at h2
          simp [hcol.1, escape, h2]
        | some w =>
          simp only [col, List.map_cons, hb, upd, List.cons.injEq] at hcol
          obtain ⟨u, hu⟩ := escape_some x i w
          rw [hcol.1, hu]
          simp [first ds bs hcol.2]

/-! ### Property C52 -/

/-- **C52**: a block changes nothing but the variables declared outside of it that it assigns to: after
the block has been closed every name has the value given by the specification `escape` — the last
value assigned to it before the block (or the inner block the assignment is in) declared the name
itself, and its old value if there is none. In particular the declarations of the block are gone. -/
theorem C52_block (h : Hist β) (b b' : List (Nat × β)) (bs bs' : List (List (Nat × β)))
    (hr : replay h ([] :: b :: bs) = some (b' :: bs')) (x : Nat) :
    envGet bs' x = escape x h (envGet (b :: bs) x) := by
  obtain ⟨c, cs, hc, _, h2⟩ := replay_spec x h _ _ _ hr
  injection hc with e1 e2
  subst e1 e2
  simpa [blockGet] using h2

/-- **C52**: at every point of a block a name has the value of the last declaration or assignment
that is not hidden in an inner block that redeclared the name. -/
theorem C52_visible (h : Hist β) (b : List (Nat × β)) (bs env' : List (List (Nat × β)))
    (hr : replay h (b :: bs) = some env') (x : Nat) :
    envGet env' x = visible x h (envGet (b :: bs) x) := by
  obtain ⟨_, _, _, h1, _⟩ := replay_spec x h _ _ _ hr
  exact h1

/-- Specification: every assignment of the history is to a name that is declared at that point;
`known` says which names are declared at the beginning. -/
def Declared : Hist β → (Nat → Prop) → Prop
  | .done, _ => True
  | .decl x _ h, known => Declared h fun y => y = x ∨ known y
  | .set x _ h, known => known x ∧ Declared h known
  | .block i r, known => Declared i known ∧ Declared r known

theorem envSet_isSome {env : List (List (Nat × β))} {x : Nat} {v : β} :
    (envSet env x v).isSome = (envGet env x).isSome := by
  induction env with
  | nil => rfl
  | cons b bs ih =>
    simp only [envSet, envGet]
    cases hb : blockSet b x v with
    | none =>
      simp only [blockSet_none hb, Option.isSome_map]
      exact ih
    | some b' =>
      obtain ⟨w, hw⟩ := Option.isSome_iff_exists.1 (blockSet_get hb x).1
      simp [hw]

theorem escape_isSome (x : Nat) (i : Hist β) (b : List (Nat × β)) (bs env' : List (List (Nat × β)))
    (hr : replay i (b :: bs) = some env') :
    (blockGet b x = none → (escape x i (envGet bs x)).isSome = (envGet bs x).isSome) := by
  intro hb
  obtain ⟨b', bs', rfl, hcol⟩ := replay_col x i _ _ _ hr
  obtain ⟨c, cs, hc, hv, h2⟩ := replay_spec x i _ _ _ hr
  injection hc with e1 e2
  subst e1 e2
  simp only [hb, Option.isSome_none, Bool.false_eq_true, if_false] at hcol h2
  rw [← h2]
  clear h2 hr hb hv
  induction bs generalizing bs' with
  | nil =>
    cases bs' with
    | nil => rfl
    | cons => simp [col, upd] at hcol
  | cons q bs ih =>
    cases bs' with
    | nil => cases hq : blockGet q x <;> simp [col, hq, upd] at hcol
    | cons q' bs' =>
      cases hq : blockGet q x with
      | none =>
        simp only [col, List.map_cons, hq, upd, List.cons.injEq] at hcol
        simp only [envGet, hq, hcol.1]
        exact ih bs' hcol.2
      | some w =>
        obtain ⟨u, hu⟩ := escape_some x i w
        simp only [col, List.map_cons, hq, upd, List.cons.injEq, hu] at hcol
        simp [envGet, hq, hcol.1]

/-- **C52**: a history goes through exactly if every name it assigns to is declared at that point;
no block closed before leaves a name behind or takes one away. -/
theorem C52_goes_through (h : Hist β) : ∀ (b : List (Nat × β)) (bs : List (List (Nat × β))),
    (replay h (b :: bs)).isSome = true ↔ Declared h fun x => (envGet (b :: bs) x).isSome = true := by
  induction h with
  | done => intro b bs; simp [replay, Declared]
  | decl y v h ih =>
    intro b bs
    simp only [replay, envAdd, Declared]
    rw [ih]
    apply Iff.of_eq
    congr 1
    funext x
    simp only [envGet, blockGet]
    by_cases hy : y = x
    · simp [hy]
    · simp [hy, Ne.symm hy]
  | set y v h ih =>
    intro b bs
    simp only [replay, Declared]
    have hs := envSet_isSome (env := b :: bs) (x := y) (v := v)
    cases he : envSet (b :: bs) y v with
    | none =>
      rw [he] at hs
      simp [← hs]
    | some e =>
      rw [he] at hs
      have hl := envSet_col he y
      cases e with
      | nil => exfalso; cases hb : blockGet b y <;> simp [col, hb, upd] at hl
      | cons b1 bs1 =>
        simp only
        rw [ih, ← hs]
        simp only [Option.isSome_some, true_and]
        apply Iff.of_eq
        congr 1
        funext x
        rw [envSet_get he x]
        by_cases hx : x = y
        · subst hx
          simp [← hs]
        · simp [hx]
  | block i r ihi ihr =>
    intro b bs
    simp only [replay, Declared]
    have h1 := ihi [] (b :: bs)
    have hk : (fun x => (envGet ([] :: b :: bs) x).isSome = true) =
        fun x => (envGet (b :: bs) x).isSome = true := by
      funext x; simp [envGet, blockGet]
    rw [hk] at h1
    cases hi : replay i ([] :: b :: bs) with
    | none =>
      rw [hi] at h1
      simp only [Option.isSome_none, Bool.false_eq_true, false_iff] at h1
      simp [h1]
    | some e =>
      rw [hi] at h1
      simp only [Option.isSome_some, true_iff] at h1
      obtain ⟨c, cs, rfl, hcol⟩ := replay_col (x := 0) (h := i) _ _ _ hi
      simp only [blockGet, Option.isSome_none, Bool.false_eq_true, if_false] at hcol
      cases cs with
      | nil => exfalso; cases hb : blockGet b 0 <;> simp [col, hb, upd] at hcol
      | cons d ds =>
        simp only
        rw [ihr]
        simp only [h1, true_and]
        apply Iff.of_eq
        congr 1
        funext x
        rw [C52_block i b c bs (d :: ds) hi x]
        have := escape_isSome x i [] (b :: bs) _ hi rfl
        rw [this]

/-- A block that assigns to `1` from outside, declares its own `1`, assigns to that, and has an inner
block that changes `2`. -/
def sampleHist : Hist Nat :=
  .set 1 10 (.decl 1 20 (.set 1 30 (.block (.decl 2 7 (.set 2 8 .done)) (.block (.set 2 9 (.set 1 40 .done)) .done))))

/-- Non-vacuity: the sample goes through from an environment with the names 1 and 2. -/
example : replay sampleHist [[], [(1, 1), (2, 2)]] = some [[(1, 40)], [(1, 10), (2, 9)]] ∧
    escape 1 sampleHist (some 1) = some 10 ∧ escape 2 sampleHist (some 2) = some 9 ∧
    visible 1 sampleHist (some 1) = some 40 := by decide

/-- Non-vacuity: a name of a closed block is not available any more. -/
example : replay (.block (.decl 5 1 .done) (.set 5 2 .done)) [[(1, 1)]] = none ∧
    ¬ Declared (.block (.decl 5 1 .done) (.set 5 2 .done) : Hist Nat)
      (fun x => (envGet [[(1, 1)]] x).isSome = true) := by
  refine ⟨by decide, ?_⟩
  simp [Declared, envGet, blockGet]

end Verif.Props.Scope
