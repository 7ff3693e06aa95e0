import Verif.AnonSem

/-!
After the removal of anonymous components and tuples neither is left.
-/

namespace Verif.Anon

set_option linter.unusedSimpArgs false
set_option linter.unusedVariables false

/-! ### Conditions -/

/-- Chains stand where lists of expressions stand, and nowhere else (`true`: a chain is expected). -/
def wf : Bool → SExpr → Bool
  | true, .nil => true
  | true, .cons e r => wf false e && wf true r
  | true, _ => false
  | false, .nil | false, .cons _ _ => false
  | false, .num _ | false, .var _ | false, .out _ _ _ | false, .succ _ => true
  | false, .op _ _ as => wf true as
  | false, .array es | false, .tuple es => wf true es
  | false, .anon _ _ ps _ ss _ => wf true ps && wf true ss
  | false, .par e => wf false e

/-- The same for statements. -/
def wfS : SStmt → Bool
  | .nil | .comp _ _ => true
  | .cons a b => wfS a && wfS b
  | .decl _ dims => wf true dims
  | .assign _ _ e | .input _ _ _ e | .under _ e => wf false e
  | .create _ _ _ ps _ => wf true ps
  | .mult l _ r => wf false l && wf false r
  | .emit as => wf true as
  | .ifThen c t => wf false c && wfS t
  | .ifElse c t e => wf false c && wfS t && wfS e
  | .while _ c b => wf false c && wfS b
  | .block b | .init b => wfS b

/-- Whether a check has passed. -/
def passes (r : Except Err Unit) : Bool :=
  match r with
  | .ok _ => true
  | .error _ => false

/-- What the checks demand of every anonymous component also holds for those under `parallel`. -/
def parOk : SExpr → Bool
  | .nil | .num _ | .var _ | .out _ _ _ | .succ _ | .op _ _ _ => true
  | .cons e r => parOk e && parOk r
  | .array es | .tuple es => parOk es
  | .anon _ _ _ _ ss _ => parOk ss
  | .par (.anon pos t ps names ss b) => passes (checkE (.anon pos t ps names ss b)) && parOk ss
  | .par _ => true

/-- The same for statements; those that only the pass writes contain no anonymous component. -/
def parOkS : SStmt → Bool
  | .cons a b => parOkS a && parOkS b
  | .assign _ _ e | .mult _ _ e => parOk e
  | .create _ _ _ e _ | .input _ _ _ e => !hasAnon e
  | .ifThen _ t => parOkS t
  | .ifElse _ t e => parOkS t && parOkS e
  | .while _ _ b | .block b | .init b => parOkS b
  | _ => true

/-- A statement contains neither anonymous components nor tuples. -/
def clean : SStmt → Bool
  | .nil | .comp _ _ => true
  | .cons a b => clean a && clean b
  | .decl _ e | .assign _ _ e | .create _ _ _ e _ | .input _ _ _ e | .under _ e | .emit e =>
    !hasAnon e && !hasTuple e
  | .mult _ _ _ => false
  | .ifThen c t => !hasAnon c && !hasTuple c && clean t
  | .ifElse c t e => !hasAnon c && !hasTuple c && clean t && clean e
  | .while _ c b => !hasAnon c && !hasTuple c && clean b
  | .block b | .init b => clean b

/-! ### Proof -/

/-- What the checks are for. -/
def proper : SExpr → Bool
  | .nil | .num _ | .var _ | .out _ _ _ | .succ _ => true
  | .cons e r => proper e && proper r
  | .op _ _ as => !hasAnon as
  | .array es | .tuple es => proper es
  | .anon _ _ ps _ ss _ => !hasAnon ps && proper ss
  | .par (.anon _ _ ps _ ss _) => !hasAnon ps && proper ss
  | .par e => !hasAnon e

theorem ok_unit {α : Type} {c : Bool} {e : Err} {x y : Except Err α}
    (h : (if c then .error e else x) = y) (ho : ∃ z, y = .ok z) : c = false ∧ x = y := by
  cases c with
  | true => obtain ⟨z, hz⟩ := ho; rw [← h] at hz; exact absurd hz (by simp)
  | false => exact ⟨rfl, by simpa using h⟩

theorem ok_if {c : Bool} {e : Err} {x : Except Err Unit}
    (h : (if c = true then .error e else x) = .ok ()) : c = false ∧ x = .ok () :=
  ok_unit h ⟨_, rfl⟩

theorem ok_seq {x y : Except Err Unit}
    (h : (match x with | .error e => (.error e : Except Err Unit) | .ok _ => y) = .ok ()) : x = .ok () ∧ y = .ok () := by
  cases x with
  | error e => simp at h
  | ok u => exact ⟨rfl, h⟩

theorem proper_of : (e : SExpr) → checkE e = .ok () → parOk e = true → proper e = true
  | .nil, _, _ | .num _, _, _ | .var _, _, _ | .out _ _ _, _, _ | .succ _, _, _ => rfl
  | .cons e r, h, hp => by
    rw [checkE] at h
    obtain ⟨h1, h2⟩ := ok_seq h
    simp only [parOk, Bool.and_eq_true] at hp
    simp only [proper, Bool.and_eq_true]
    exact ⟨proper_of e h1 hp.1, proper_of r h2 hp.2⟩
  | .op _ _ as, h, _ => by
    rw [checkE] at h
    simp [proper, (ok_if h).1]
  | .array es, h, hp => by
    rw [checkE] at h; rw [parOk] at hp; rw [proper]; exact proper_of es h hp
  | .tuple es, h, hp => by
    rw [checkE] at h; rw [parOk] at hp; rw [proper]; exact proper_of es h hp
  | .anon _ _ ps _ ss _, h, hp => by
    rw [checkE] at h; rw [parOk] at hp
    obtain ⟨h1, h2⟩ := ok_if h
    simp [proper, h1, proper_of ss h2 hp]
  | .par (.anon pos t ps names ss b), h, hp => by
    simp only [parOk, Bool.and_eq_true] at hp
    have h3 : checkE (.anon pos t ps names ss b) = .ok () := by
      cases hc : checkE (.anon pos t ps names ss b) with
      | error e => simp [passes, hc] at hp
      | ok u => rfl
    rw [checkE] at h3
    obtain ⟨h1, h2⟩ := ok_if h3
    simp [proper, h1, proper_of ss h2 hp.2]
  | .par .nil, h, _ | .par (.num _), h, _ | .par (.var _), h, _ | .par (.out _ _ _), h, _
  | .par (.succ _), h, _ => rfl
  | .par (.cons a b), h, _ => by
    rw [checkE] at h
    simp only [isCall, isAnon, Bool.not_false, Bool.true_and] at h
    simp only [proper, (ok_if h).1, Bool.not_false]
  | .par (.array a), h, _ => by
    rw [checkE] at h
    simp only [isCall, isAnon, Bool.not_false, Bool.true_and] at h
    simp only [proper, (ok_if h).1, Bool.not_false]
  | .par (.tuple a), h, _ => by
    rw [checkE] at h
    simp only [isCall, isAnon, Bool.not_false, Bool.true_and] at h
    simp only [proper, (ok_if h).1, Bool.not_false]
  | .par (.par a), h, _ => by
    rw [checkE] at h
    simp only [isCall, isAnon, Bool.not_false, Bool.true_and] at h
    simp only [proper, (ok_if h).1, Bool.not_false]
  | .par (.op true k a), h, _ => by
    rw [checkE] at h
    simp only [isCall, isAnon, Bool.not_true, Bool.false_and, Bool.true_and, Bool.false_eq_true,
      if_false] at h
    simp only [proper, (ok_if h).1, Bool.not_false]
  | .par (.op false k a), h, _ => by
    rw [checkE] at h
    simp only [isCall, isAnon, Bool.not_false, Bool.true_and] at h
    simp only [proper, (ok_if h).1, Bool.not_false]

/-- No anonymous components. -/
def bare : SStmt → Bool
  | .nil | .comp _ _ => true
  | .cons a b => bare a && bare b
  | .decl _ e | .assign _ _ e | .create _ _ _ e _ | .input _ _ _ e | .under _ e | .emit e => !hasAnon e
  | .mult l _ r => !hasAnon l && !hasAnon r
  | .ifThen c t => !hasAnon c && bare t
  | .ifElse c t e => !hasAnon c && bare t && bare e
  | .while _ c b => !hasAnon c && bare b
  | .block b | .init b => bare b

theorem bare_chain (l : List SStmt) : bare (chain l) = l.all bare := by
  induction l with
  | nil => rfl
  | cons a l ih => simp [chain, bare, ih]

theorem wfS_chain (l : List SStmt) : wfS (chain l) = l.all wfS := by
  induction l with
  | nil => rfl
  | cons a l ih => simp [chain, wfS, ih]

theorem hasAnon_args (l : List SExpr) : hasAnon (args l) = l.any hasAnon := by
  induction l with
  | nil => rfl
  | cons a l ih => simp [args, hasAnon, ih]

theorem wf_args (l : List SExpr) : wf true (args l) = l.all (wf false) := by
  induction l with
  | nil => rfl
  | cons a l ih => simp [args, wf, ih]

/-- A result without anonymous components, with chains in the right places. -/
def Fine (r : Res) : Prop :=
  hasAnon r.expr = false ∧ wf false r.expr = true ∧ ∀ s ∈ r.stmts, bare s = true ∧ wfS s = true

theorem insert_mem {α : Type} (k : Nat) (v : α) (l : List (Nat × α)) :
    ∀ x ∈ insert k v l, x = (k, v) ∨ x ∈ l := by
  induction l with
  | nil => intro x hx; simpa [insert] using hx
  | cons a l ih =>
    obtain ⟨k', v'⟩ := a
    intro x hx
    simp only [insert] at hx
    split at hx
    · simpa using hx
    · split at hx
      · rcases List.mem_cons.mp hx with h | h
        · exact .inl h
        · exact .inr (List.mem_cons_of_mem _ h)
      · rcases List.mem_cons.mp hx with h | h
        · exact .inr (by rw [h]; exact List.mem_cons_self)
        · rcases ih x h with h' | h'
          · exact .inl h'
          · exact .inr (List.mem_cons_of_mem _ h')

theorem toMap_mem {α : Type} (l : List (Nat × α)) : ∀ x ∈ toMap l, x ∈ l := by
  have : ∀ (l m : List (Nat × α)), ∀ x ∈ l.foldl (fun m e => insert e.1 e.2 m) m, x ∈ l ∨ x ∈ m := by
    intro l
    induction l with
    | nil => intro m x hx; exact .inr hx
    | cons a l ih =>
      intro m x hx
      rcases ih _ x hx with h | h
      · exact .inl (List.mem_cons_of_mem _ h)
      · rcases insert_mem _ _ _ x h with h' | h'
        · exact .inl (by rw [h']; exact List.mem_cons_self)
        · exact .inr h'
  intro x hx
  rcases this l [] x hx with h | h
  · exact h
  · cases h

theorem bind_mem {α : Type} {tm : Templ} {names : Option (List (AOp × Nat))} {vals : List α}
    {ins : List (Nat × α)} (h : bind tm names vals = .ok ins) : ∀ x ∈ ins, x.2 ∈ vals := by
  intro x hx
  cases names with
  | none =>
    simp only [bind] at h
    split at h
    · cases h
    · injection h with h
      rw [← h] at hx
      exact (List.of_mem_zip (toMap_mem _ x hx)).2
  | some m =>
    simp only [bind] at h
    split at h
    · cases h
    · split at h
      · cases h
      · split at h
        · cases h
        · split at h
          · cases h
          · split at h
            · cases h
            · injection h with h
              rw [← h] at hx
              exact (List.of_mem_zip (toMap_mem _ x hx)).2

theorem expand_fine {N : Names} {T : Nat → Option Templ} {acc : Option Nat} {pos t : Nat} {ps : SExpr}
    {names : Option (List (AOp × Nat))} {rs : List Res} {par : Bool} {r : Res}
    (h : expand N T acc pos t ps names rs par = .ok r) (hp : hasAnon ps = false) (hw : wf true ps = true)
    (hr : ∀ x ∈ rs, Fine x) : Fine r := by
  rw [expand] at h
  cases ht : T t with
  | none => rw [ht] at h; cases h
  | some tm =>
    rw [ht] at h
    simp only at h
    cases hb : bind tm names rs with
    | error e => rw [hb] at h; cases h
    | ok ins =>
      rw [hb] at h
      simp only at h
      injection h with h
      subst h
      refine ⟨?_, ?_, ?_⟩
      · simp only
        split
        · rfl
        · simp only [hasAnon, hasAnon_args, List.any_map]
          simp [hasAnon]
      · simp only
        split
        · rfl
        · simp only [wf, wf_args, List.all_map]
          simp [wf]
      · intro s hs
        simp only [List.mem_singleton] at hs
        subst hs
        have key : ∀ s ∈ (SStmt.create (N.comp t pos) acc t ps par ::
            ins.flatMap fun x => x.2.stmts ++ [SStmt.input (N.comp t pos) acc x.1 x.2.expr]),
            bare s = true ∧ wfS s = true := by
          intro s hs
          rcases List.mem_cons.mp hs with rfl | hs
          · exact ⟨by simp [bare, hp], by simp [wfS, hw]⟩
          · obtain ⟨x, hx, hs⟩ := List.mem_flatMap.mp hs
            have hf := hr _ (bind_mem hb x hx)
            rcases List.mem_append.mp hs with hs | hs
            · exact hf.2.2 s hs
            · simp only [List.mem_singleton] at hs
              subst hs
              exact ⟨by simp [bare, hf.1], by simp [wfS, hf.2.1]⟩
        refine ⟨?_, ?_⟩
        · simp only [bare, bare_chain, List.all_eq_true]
          exact fun s hs => (key s hs).1
        · simp only [wfS, wfS_chain, List.all_eq_true]
          exact fun s hs => (key s hs).2

theorem removeE_fine (N : Names) (T : Nat → Option Templ) (acc : Option Nat) :
    (e : SExpr) → (c : Bool) → (rs : List Res) → removeE N T acc e = .ok rs → proper e = true →
      wf c e = true → ∀ r ∈ rs, Fine r
  | .nil, c, rs, h, _, _ => by
    rw [removeE] at h; injection h with h; subst h
    intro r hr; cases hr
  | .cons e r, c, rs, h, hp, hw => by
    rw [removeE] at h
    simp only [proper, Bool.and_eq_true] at hp
    cases c with
    | false => simp [wf] at hw
    | true =>
      simp only [wf, Bool.and_eq_true] at hw
      cases he : removeE N T acc e with
      | error x => rw [he] at h; cases h
      | ok re =>
        rw [he] at h
        simp only at h
        cases hr : removeE N T acc r with
        | error x => rw [hr] at h; cases h
        | ok rr =>
          rw [hr] at h
          injection h with h
          subst h
          intro x hx
          rcases List.mem_append.mp hx with hx | hx
          · exact removeE_fine N T acc e _ re he hp.1 hw.1 x hx
          · exact removeE_fine N T acc r _ rr hr hp.2 hw.2 x hx
  | .array es, c, rs, h, hp, hw => by
    rw [removeE] at h
    rw [proper] at hp
    cases c with
    | true => simp [wf] at hw
    | false =>
      simp only [wf] at hw
      cases he : removeE N T acc es with
      | error x => rw [he] at h; cases h
      | ok re =>
        rw [he] at h
        injection h with h
        subst h
        have ih := removeE_fine N T acc es _ re he hp hw
        intro x hx
        simp only [List.mem_singleton] at hx
        subst hx
        refine ⟨?_, ?_, ?_⟩
        · simp only [hasAnon, hasAnon_args, List.any_map, List.any_eq_false]
          intro r hr; simpa using (ih r hr).1
        · simp only [wf, wf_args, List.all_map, List.all_eq_true]
          intro r hr; simpa using (ih r hr).2.1
        · intro s hs
          obtain ⟨r, hr, hs⟩ := List.mem_flatMap.mp hs
          exact (ih r hr).2.2 s hs
  | .tuple es, c, rs, h, hp, hw => by
    rw [removeE] at h
    rw [proper] at hp
    cases c with
    | true => simp [wf] at hw
    | false =>
      simp only [wf] at hw
      cases he : removeE N T acc es with
      | error x => rw [he] at h; cases h
      | ok re =>
        rw [he] at h
        injection h with h
        subst h
        have ih := removeE_fine N T acc es _ re he hp hw
        intro x hx
        simp only [List.mem_singleton] at hx
        subst hx
        refine ⟨?_, ?_, ?_⟩
        · simp only [hasAnon, hasAnon_args, List.any_map, List.any_eq_false]
          intro r hr; simpa using (ih r hr).1
        · simp only [wf, wf_args, List.all_map, List.all_eq_true]
          intro r hr; simpa using (ih r hr).2.1
        · intro s hs
          obtain ⟨r, hr, hs⟩ := List.mem_flatMap.mp hs
          exact (ih r hr).2.2 s hs
  | .anon pos t ps names ss par, c, rs, h, hp, hw => by
    rw [removeE] at h
    simp only [proper, Bool.and_eq_true, Bool.not_eq_true'] at hp
    cases c with
    | true => simp [wf] at hw
    | false =>
      simp only [wf, Bool.and_eq_true] at hw
      cases he : removeE N T acc ss with
      | error x => rw [he] at h; cases h
      | ok re =>
        rw [he] at h
        simp only at h
        cases hx : expand N T acc pos t ps names re par with
        | error x => rw [hx] at h; cases h
        | ok r =>
          rw [hx] at h
          injection h with h
          subst h
          intro y hy
          simp only [List.mem_singleton] at hy
          subst hy
          exact expand_fine hx hp.1 hw.1 (removeE_fine N T acc ss _ re he hp.2 hw.2)
  | .par (.anon pos t ps names ss par), c, rs, h, hp, hw => by
    rw [removeE] at h
    simp only [proper, Bool.and_eq_true, Bool.not_eq_true'] at hp
    cases c with
    | true => simp [wf] at hw
    | false =>
      simp only [wf, Bool.and_eq_true] at hw
      cases he : removeE N T acc ss with
      | error x => rw [he] at h; cases h
      | ok re =>
        rw [he] at h
        simp only at h
        cases hx : expand N T acc pos t ps names re true with
        | error x => rw [hx] at h; cases h
        | ok r =>
          rw [hx] at h
          injection h with h
          subst h
          intro y hy
          simp only [List.mem_singleton] at hy
          subst hy
          exact expand_fine hx hp.1 hw.1 (removeE_fine N T acc ss _ re he hp.2 hw.2)
  | .num v, c, rs, h, hp, hw => by
    cases c with
    | true => simp [wf] at hw
    | false =>
      simp only [removeE] at h; injection h with h; subst h
      intro r hr; simp only [List.mem_singleton] at hr; subst hr
      exact ⟨rfl, rfl, fun s hs => by cases hs⟩
  | .var v, c, rs, h, hp, hw => by
    cases c with
    | true => simp [wf] at hw
    | false =>
      simp only [removeE] at h; injection h with h; subst h
      intro r hr; simp only [List.mem_singleton] at hr; subst hr
      exact ⟨rfl, rfl, fun s hs => by cases hs⟩
  | .out _ _ _, c, rs, h, hp, hw => by
    cases c with
    | true => simp [wf] at hw
    | false =>
      simp only [removeE] at h; injection h with h; subst h
      intro r hr; simp only [List.mem_singleton] at hr; subst hr
      exact ⟨rfl, rfl, fun s hs => by cases hs⟩
  | .succ _, c, rs, h, hp, hw => by
    cases c with
    | true => simp [wf] at hw
    | false =>
      simp only [removeE] at h; injection h with h; subst h
      intro r hr; simp only [List.mem_singleton] at hr; subst hr
      exact ⟨rfl, rfl, fun s hs => by cases hs⟩
  | .op _ _ as, c, rs, h, hp, hw => by
    cases c with
    | true => simp [wf] at hw
    | false =>
      simp only [removeE] at h; injection h with h; subst h
      intro r hr; simp only [List.mem_singleton] at hr; subst hr
      simp only [proper, Bool.not_eq_true'] at hp
      exact ⟨hp, hw, fun s hs => by cases hs⟩
  | .par .nil, c, rs, h, hp, hw | .par (.cons _ _), c, rs, h, hp, hw | .par (.num _), c, rs, h, hp, hw
  | .par (.var _), c, rs, h, hp, hw | .par (.out _ _ _), c, rs, h, hp, hw
  | .par (.succ _), c, rs, h, hp, hw | .par (.op _ _ _), c, rs, h, hp, hw
  | .par (.array _), c, rs, h, hp, hw | .par (.tuple _), c, rs, h, hp, hw
  | .par (.par _), c, rs, h, hp, hw => by
    cases c with
    | true => simp [wf] at hw
    | false =>
      simp only [removeE] at h; injection h with h; subst h
      intro r hr; simp only [List.mem_singleton] at hr; subst hr
      simp only [proper, Bool.not_eq_true'] at hp
      exact ⟨hp, hw, fun s hs => by cases hs⟩

/-- What the pass writes for the counters. -/
def Inits (l : List SStmt) : Prop := ∀ s ∈ l, bare s = true ∧ wfS s = true

theorem removeS_fine (N : Names) (T : Nat → Option Templ) :
    (s : SStmt) → (acc : Option Nat) → (u : Upd) → removeS N T acc s = .ok u → checkS s = .ok () →
      parOkS s = true → wfS s = true → bare u.stmt = true ∧ wfS u.stmt = true ∧ Inits u.subs
  | .nil, acc, u, h, _, _, _ => by
    rw [removeS] at h; injection h with h; subst h
    exact ⟨rfl, rfl, fun s hs => by cases hs⟩
  | .cons a b, acc, u, h, hc, hp, hw => by
    rw [removeS] at h
    rw [checkS] at hc
    obtain ⟨hc1, hc2⟩ := ok_seq hc
    simp only [parOkS, Bool.and_eq_true] at hp
    simp only [wfS, Bool.and_eq_true] at hw
    cases ha : removeS N T acc a with
    | error x => rw [ha] at h; cases h
    | ok ua =>
      rw [ha] at h
      simp only at h
      cases hb : removeS N T acc b with
      | error x => rw [hb] at h; cases h
      | ok ub =>
        rw [hb] at h
        injection h with h
        subst h
        obtain ⟨a1, a2, a3⟩ := removeS_fine N T a acc ua ha hc1 hp.1 hw.1
        obtain ⟨b1, b2, b3⟩ := removeS_fine N T b acc ub hb hc2 hp.2 hw.2
        refine ⟨by simp [bare, a1, b1], by simp [wfS, a2, b2], fun s hs => ?_⟩
        rcases List.mem_append.mp hs with hs | hs
        · exact a3 s hs
        · exact b3 s hs
  | .assign x op e, acc, u, h, hc, hp, hw => by
    rw [removeS] at h
    rw [checkS] at hc
    obtain ⟨_, hc⟩ := ok_if hc
    rw [parOkS] at hp
    rw [wfS] at hw
    cases he : removeE N T acc e with
    | error x => rw [he] at h; cases h
    | ok rs =>
      rw [he] at h
      have hf := removeE_fine N T acc e _ rs he (proper_of e hc hp) hw
      match rs, h, hf with
      | [r], h, hf =>
        have hr := hf r List.mem_cons_self
        simp only at h
        split at h
        · injection h with h; subst h
          exact ⟨by simp [bare, hr.1], by simp [wfS, hr.2.1], fun s hs => by cases hs⟩
        · injection h with h; subst h
          refine ⟨?_, ?_, fun s hs => by cases hs⟩
          · simp only [bare, bare_chain, List.all_append, Bool.and_eq_true, List.all_eq_true]
            exact ⟨fun s hs => (hr.2.2 s hs).1, by simp [bare, hr.1]⟩
          · simp only [wfS, wfS_chain, List.all_append, Bool.and_eq_true, List.all_eq_true]
            exact ⟨fun s hs => (hr.2.2 s hs).2, by simp [wfS, hr.2.1]⟩
      | [], h, hf => cases h
      | _ :: _ :: _, h, hf => cases h
  | .mult l op e, acc, u, h, hc, hp, hw => by
    rw [removeS] at h
    rw [checkS] at hc
    obtain ⟨hl, hc⟩ := ok_if hc
    obtain ⟨_, hc⟩ := ok_if hc
    rw [parOkS] at hp
    simp only [wfS, Bool.and_eq_true] at hw
    cases he : removeE N T acc e with
    | error x => rw [he] at h; cases h
    | ok rs =>
      rw [he] at h
      have hf := removeE_fine N T acc e _ rs he (proper_of e hc hp) hw.2
      match rs, h, hf with
      | [r], h, hf =>
        have hr := hf r List.mem_cons_self
        simp only at h
        split at h
        · injection h with h; subst h
          exact ⟨by simp [bare, hr.1, hl], by simp [wfS, hr.2.1, hw.1], fun s hs => by cases hs⟩
        · injection h with h; subst h
          refine ⟨?_, ?_, fun s hs => by cases hs⟩
          · simp only [bare, bare_chain, List.all_append, Bool.and_eq_true, List.all_eq_true]
            exact ⟨fun s hs => (hr.2.2 s hs).1, by simp [bare, hr.1, hl]⟩
          · simp only [wfS, wfS_chain, List.all_append, Bool.and_eq_true, List.all_eq_true]
            exact ⟨fun s hs => (hr.2.2 s hs).2, by simp [wfS, hr.2.1, hw.1]⟩
      | [], h, hf => cases h
      | _ :: _ :: _, h, hf => cases h
  | .ifThen c t, acc, u, h, hc, hp, hw => by
    rw [removeS] at h
    rw [checkS] at hc
    obtain ⟨hcc, hc⟩ := ok_if hc
    rw [parOkS] at hp
    simp only [wfS, Bool.and_eq_true] at hw
    cases ht : removeS N T acc t with
    | error x => rw [ht] at h; cases h
    | ok ut =>
      rw [ht] at h
      injection h with h
      subst h
      obtain ⟨a1, a2, a3⟩ := removeS_fine N T t acc ut ht hc hp hw.2
      exact ⟨by simp [bare, a1, hcc], by simp [wfS, a2, hw.1], a3⟩
  | .ifElse c t e, acc, u, h, hc, hp, hw => by
    rw [removeS] at h
    rw [checkS] at hc
    obtain ⟨hcc, hc⟩ := ok_if hc
    obtain ⟨hc1, hc2⟩ := ok_seq hc
    simp only [parOkS, Bool.and_eq_true] at hp
    simp only [wfS, Bool.and_eq_true] at hw
    cases ht : removeS N T acc t with
    | error x => rw [ht] at h; cases h
    | ok ut =>
      rw [ht] at h
      simp only at h
      cases he : removeS N T acc e with
      | error x => rw [he] at h; cases h
      | ok ue =>
        rw [he] at h
        injection h with h
        subst h
        obtain ⟨a1, a2, a3⟩ := removeS_fine N T t acc ut ht hc1 hp.1 hw.1.2
        obtain ⟨b1, b2, b3⟩ := removeS_fine N T e acc ue he hc2 hp.2 hw.2
        refine ⟨by simp [bare, a1, b1, hcc], by simp [wfS, a2, b2, hw.1.1], fun s hs => ?_⟩
        rcases List.mem_append.mp hs with hs | hs
        · exact a3 s hs
        · exact b3 s hs
  | .while pos c b, acc, u, h, hc, hp, hw => by
    rw [removeS] at h
    rw [checkS] at hc
    obtain ⟨hcc, hc⟩ := ok_if hc
    rw [parOkS] at hp
    simp only [wfS, Bool.and_eq_true] at hw
    cases ht : removeS N T (some (N.loop pos)) b with
    | error x => rw [ht] at h; cases h
    | ok ut =>
      rw [ht] at h
      simp only at h
      obtain ⟨a1, a2, a3⟩ := removeS_fine N T b _ ut ht hc hp hw.2
      split at h
      · injection h with h
        subst h
        refine ⟨by simp [bare, a1, hcc, chain, hasAnon], by simp [wfS, a2, hw.1, chain, wf],
          fun s hs => ?_⟩
        rcases List.mem_append.mp hs with hs | hs
        · exact a3 s hs
        · simp only [List.mem_singleton] at hs
          subst hs
          exact ⟨rfl, rfl⟩
      · injection h with h
        subst h
        exact ⟨by simp [bare, a1, hcc], by simp [wfS, a2, hw.1], fun s hs => by cases hs⟩
  | .block b, acc, u, h, hc, hp, hw => by
    rw [removeS] at h
    rw [checkS] at hc
    rw [parOkS] at hp
    rw [wfS] at hw
    cases ht : removeS N T acc b with
    | error x => rw [ht] at h; cases h
    | ok ut =>
      rw [ht] at h
      injection h with h
      subst h
      obtain ⟨a1, a2, a3⟩ := removeS_fine N T b acc ut ht hc hp hw
      exact ⟨by simp [bare, a1], by simp [wfS, a2], a3⟩
  | .init b, acc, u, h, hc, hp, hw => by
    rw [removeS] at h
    rw [checkS] at hc
    rw [parOkS] at hp
    rw [wfS] at hw
    cases ht : removeS N T acc b with
    | error x => rw [ht] at h; cases h
    | ok ut =>
      rw [ht] at h
      injection h with h
      subst h
      obtain ⟨a1, a2, a3⟩ := removeS_fine N T b acc ut ht hc hp hw
      exact ⟨by simp [bare, a1], by simp [wfS, a2], a3⟩
  | .under _ _, acc, u, h, _, _, _ => by rw [removeS] at h; cases h
  | .decl x e, acc, u, h, hc, hp, hw => by
    simp only [removeS] at h; injection h with h; subst h
    rw [checkS] at hc
    exact ⟨by simp [bare, (ok_if hc).1], hw, fun s hs => by cases hs⟩
  | .comp _ _, acc, u, h, hc, hp, hw => by
    simp only [removeS] at h; injection h with h; subst h
    exact ⟨rfl, rfl, fun s hs => by cases hs⟩
  | .create _ _ _ _ _, acc, u, h, hc, hp, hw => by
    simp only [removeS] at h; injection h with h; subst h
    exact ⟨by simpa [bare, parOkS] using hp, hw, fun s hs => by cases hs⟩
  | .input c l i e, acc, u, h, hc, hp, hw => by
    simp only [removeS] at h; injection h with h; subst h
    exact ⟨by simpa [bare, parOkS] using hp, hw, fun s hs => by cases hs⟩
  | .emit as, acc, u, h, hc, hp, hw => by
    simp only [removeS] at h; injection h with h; subst h
    rw [checkS] at hc
    exact ⟨by simp [bare, (ok_if hc).1], hw, fun s hs => by cases hs⟩

/-! ### Tuples -/

theorem flat_free : (e : SExpr) → (c : Bool) → checkTE e = .ok () → wf c e = true → hasAnon e = false →
    ∀ x ∈ flat e, hasTuple x = false ∧ hasAnon x = false
  | .nil, _, _, _, _ => by intro x hx; cases hx
  | .cons e r, c, h, hw, ha => by
    rw [checkTE] at h
    obtain ⟨h1, h2⟩ := ok_seq h
    cases c with
    | false => simp [wf] at hw
    | true =>
      simp only [wf, Bool.and_eq_true] at hw
      simp only [hasAnon, Bool.or_eq_false_iff] at ha
      intro x hx
      rcases List.mem_append.mp hx with hx | hx
      · exact flat_free e _ h1 hw.1 ha.1 x hx
      · exact flat_free r _ h2 hw.2 ha.2 x hx
  | .tuple es, c, h, hw, ha => by
    rw [checkTE] at h
    cases c with
    | true => simp [wf] at hw
    | false =>
      simp only [wf] at hw
      rw [hasAnon] at ha
      exact flat_free es _ h hw ha
  | .num _, _, h, hw, ha | .var _, _, h, hw, ha | .out _ _ _, _, h, hw, ha | .succ _, _, h, hw, ha => by
    intro x hx
    simp only [flat, List.mem_singleton] at hx
    subst hx
    exact ⟨rfl, rfl⟩
  | .op _ _ _, _, h, hw, ha | .array _, _, h, hw, ha | .par _, _, h, hw, ha => by
    intro x hx
    simp only [flat, List.mem_singleton] at hx
    subst hx
    rw [checkTE] at h
    exact ⟨(ok_if h).1, ha⟩
  | .anon _ _ _ _ _ _, _, h, hw, ha => by simp [hasAnon] at ha

theorem one_free {e : SExpr} (h : checkTE e = .ok ()) (hw : wf false e = true) (ht : isTuple e = false) :
    hasTuple e = false := by
  cases e with
  | nil => simp [wf] at hw
  | cons a b => simp [wf] at hw
  | tuple es => simp [isTuple] at ht
  | anon => rw [checkTE] at h; cases h
  | num _ => rfl
  | var _ => rfl
  | out _ _ _ => rfl
  | succ _ => rfl
  | op _ _ _ => rw [checkTE] at h; exact (ok_if h).1
  | array _ => rw [checkTE] at h; exact (ok_if h).1
  | par _ => rw [checkTE] at h; exact (ok_if h).1

theorem clean_chain (l : List SStmt) : clean (chain l) = l.all clean := by
  induction l with
  | nil => rfl
  | cons a l ih => simp [chain, clean, ih]

theorem split_clean {op : AOp} : (ls rs : List SExpr) → (ss : List SStmt) → split op ls rs = .ok ss →
    (∀ x ∈ rs, hasTuple x = false ∧ hasAnon x = false) → ∀ s ∈ ss, clean s = true
  | [], [], ss, h, _ => by
    rw [split] at h; injection h with h; subst h; intro s hs; cases hs
  | [], _ :: _, ss, h, _ => by simp [split] at h
  | .var x :: ls, [], ss, h, _ => by simp [split] at h
  | .var x :: ls, r :: rs, ss, h, hr => by
    rw [split] at h
    cases hs : split op ls rs with
    | error e => rw [hs] at h; cases h
    | ok rest =>
      rw [hs] at h
      injection h with h
      subst h
      intro s hm
      have h0 := hr r List.mem_cons_self
      rcases List.mem_cons.mp hm with rfl | hm
      · split
        · simp [clean, h0.1, h0.2]
        · simp [clean, h0.1, h0.2]
      · exact split_clean ls rs rest hs (fun x hx => hr x (List.mem_cons_of_mem _ hx)) s hm
  | .nil :: _, _, ss, h, _ | .cons _ _ :: _, _, ss, h, _ | .num _ :: _, _, ss, h, _
  | .out _ _ _ :: _, _, ss, h, _ | .succ _ :: _, _, ss, h, _ | .op _ _ _ :: _, _, ss, h, _
  | .array _ :: _, _, ss, h, _ | .tuple _ :: _, _, ss, h, _ | .anon _ _ _ _ _ _ :: _, _, ss, h, _
  | .par _ :: _, _, ss, h, _ => by simp [split] at h

theorem removeT_clean : (s s' : SStmt) → removeT s = .ok s' → checkTS s = .ok () → bare s = true →
    wfS s = true → clean s' = true
  | .nil, s', h, _, _, _ => by simp only [removeT] at h; injection h with h; subst h; rfl
  | .cons a b, s', h, hc, hb, hw => by
    rw [removeT] at h
    rw [checkTS] at hc
    obtain ⟨hc1, hc2⟩ := ok_seq hc
    simp only [bare, Bool.and_eq_true] at hb
    simp only [wfS, Bool.and_eq_true] at hw
    cases ha : removeT a with
    | error x => rw [ha] at h; cases h
    | ok a' =>
      rw [ha] at h
      simp only at h
      cases hbb : removeT b with
      | error x => rw [hbb] at h; cases h
      | ok b' =>
        rw [hbb] at h
        injection h with h
        subst h
        simp [clean, removeT_clean a a' ha hc1 hb.1 hw.1, removeT_clean b b' hbb hc2 hb.2 hw.2]
  | .assign x op e, s', h, hc, hb, hw => by
    rw [removeT] at h
    rw [checkTS] at hc
    simp only [bare, Bool.not_eq_true'] at hb
    rw [wfS] at hw
    obtain ⟨ht, h⟩ := ok_unit h ⟨_, rfl⟩
    injection h with h
    subst h
    have := one_free hc hw ht
    split
    · simp [clean, hb, this]
    · simp [clean, hb, this]
  | .input c l i e, s', h, hc, hb, hw => by
    rw [removeT] at h
    rw [checkTS] at hc
    simp only [bare, Bool.not_eq_true'] at hb
    rw [wfS] at hw
    obtain ⟨ht, h⟩ := ok_unit h ⟨_, rfl⟩
    injection h with h
    subst h
    have := one_free hc hw ht
    simp [clean, hb, this]
  | .mult l op r, s', h, hc, hb, hw => by
    rw [removeT] at h
    rw [checkTS] at hc
    obtain ⟨_, hc⟩ := ok_seq hc
    simp only [bare, Bool.and_eq_true, Bool.not_eq_true'] at hb
    simp only [wfS, Bool.and_eq_true] at hw
    split at h
    · split at h
      · cases hs : split op (flat l) (flat r) with
        | error x => rw [hs] at h; cases h
        | ok ss =>
          rw [hs] at h
          injection h with h
          subst h
          simp only [clean, clean_chain, List.all_eq_true]
          exact split_clean _ _ _ hs (flat_free r _ hc hw.2 hb.2)
      · cases h
    · cases h
  | .ifThen c t, s', h, hc, hb, hw => by
    rw [removeT] at h
    rw [checkTS] at hc
    obtain ⟨hcc, hc⟩ := ok_if hc
    simp only [bare, Bool.and_eq_true, Bool.not_eq_true'] at hb
    simp only [wfS, Bool.and_eq_true] at hw
    cases ht : removeT t with
    | error x => rw [ht] at h; cases h
    | ok t' =>
      rw [ht] at h
      injection h with h
      subst h
      simp [clean, hb.1, hcc, removeT_clean t t' ht hc hb.2 hw.2]
  | .ifElse c t e, s', h, hc, hb, hw => by
    rw [removeT] at h
    rw [checkTS] at hc
    obtain ⟨hcc, hc⟩ := ok_if hc
    obtain ⟨hc1, hc2⟩ := ok_seq hc
    simp only [bare, Bool.and_eq_true, Bool.not_eq_true'] at hb
    simp only [wfS, Bool.and_eq_true] at hw
    cases ht : removeT t with
    | error x => rw [ht] at h; cases h
    | ok t' =>
      rw [ht] at h
      simp only at h
      cases he : removeT e with
      | error x => rw [he] at h; cases h
      | ok e' =>
        rw [he] at h
        injection h with h
        subst h
        simp [clean, hb.1.1, hcc, removeT_clean t t' ht hc1 hb.1.2 hw.1.2,
          removeT_clean e e' he hc2 hb.2 hw.2]
  | .while pos c b, s', h, hc, hb, hw => by
    rw [removeT] at h
    rw [checkTS] at hc
    obtain ⟨hcc, hc⟩ := ok_if hc
    simp only [bare, Bool.and_eq_true, Bool.not_eq_true'] at hb
    simp only [wfS, Bool.and_eq_true] at hw
    cases ht : removeT b with
    | error x => rw [ht] at h; cases h
    | ok t' =>
      rw [ht] at h
      injection h with h
      subst h
      simp [clean, hb.1, hcc, removeT_clean b t' ht hc hb.2 hw.2]
  | .block b, s', h, hc, hb, hw => by
    rw [removeT] at h
    rw [checkTS] at hc
    rw [bare] at hb
    rw [wfS] at hw
    cases ht : removeT b with
    | error x => rw [ht] at h; cases h
    | ok t' =>
      rw [ht] at h
      injection h with h
      subst h
      simp [clean, removeT_clean b t' ht hc hb hw]
  | .init b, s', h, hc, hb, hw => by
    rw [removeT] at h
    rw [checkTS] at hc
    rw [bare] at hb
    rw [wfS] at hw
    cases ht : removeT b with
    | error x => rw [ht] at h; cases h
    | ok t' =>
      rw [ht] at h
      injection h with h
      subst h
      simp [clean, removeT_clean b t' ht hc hb hw]
  | .under _ _, s', h, _, _, _ => by rw [removeT] at h; cases h
  | .comp _ _, s', h, _, _, _ => by simp only [removeT] at h; injection h with h; subst h; rfl
  | .decl _ e, s', h, hc, hb, hw | .create _ _ _ e _, s', h, hc, hb, hw | .emit e, s', h, hc, hb, hw => by
    simp only [removeT] at h; injection h with h; subst h
    rw [checkTS] at hc
    simp only [bare, Bool.not_eq_true'] at hb
    simp [clean, hb, (ok_if hc).1]

theorem desugar_clean {N : Names} {T : Nat → Option Templ} {b s : SStmt} (h : desugar N T b = .ok s)
    (hp : parOkS b = true) (hw : wfS b = true) : clean s = true := by
  rw [desugar] at h
  cases hc : checkS b with
  | error x => rw [hc] at h; cases h
  | ok _ =>
    rw [hc] at h
    simp only at h
    cases hr : removeS N T none b with
    | error x => rw [hr] at h; cases h
    | ok u =>
      rw [hr] at h
      simp only at h
      cases ht : checkTS (withInits u) with
      | error x => rw [ht] at h; cases h
      | ok _ =>
        rw [ht] at h
        simp only at h
        obtain ⟨h1, h2, h3⟩ := removeS_fine N T b none u hr hc hp hw
        refine removeT_clean _ _ h ht ?_ ?_
        · simp only [withInits, bare, bare_chain, List.all_append, List.all_cons, List.all_nil,
            List.all_map, Bool.and_true, Bool.and_eq_true, List.all_eq_true]
          refine ⟨⟨⟨?_, ?_⟩, fun s hs => (h3 s hs).1⟩, h1⟩
          · intro x _; rfl
          · intro x _; rfl
        · simp only [withInits, wfS, wfS_chain, List.all_append, List.all_cons, List.all_nil,
            List.all_map, Bool.and_true, Bool.and_eq_true, List.all_eq_true]
          refine ⟨⟨⟨?_, ?_⟩, fun s hs => (h3 s hs).2⟩, h2⟩
          · intro x _; rfl
          · intro x _; rfl

end Verif.Anon
