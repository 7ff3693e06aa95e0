import Verif.ArrExecMem
import Verif.ExecSim

/-!
The symbolic execution on arrays against the concrete one: evaluation.
-/

set_option linter.unusedSimpArgs false
set_option linter.unusedVariables false
set_option linter.unusedSectionVars false

namespace Verif.ArrExec

open Verif.ModArith Verif.Algebra Verif.Memory
open Verif.Exec (Op UOp V applyOp applyUOp cOp cUOp envGet envSet envAdd blockGet blockSet RelV rho
  applyOp_rel applyUOp_rel envGet_rel envSet_rel)

variable {p : Nat} {w : Nat → Int}

/-- A slice stands for a concrete one. -/
structure RelS (p : Nat) (w : Nat → Int) (s : Slice V) (t : Slice Int) : Prop where
  rs : RS (RelV p (rho p w)) s t
  shaped : Shaped s

/-- The same for the variable blocks. -/
def RelE (p : Nat) (w : Nat → Int) (env : List (List (Nat × Slice V))) (c : CEnv) : Prop :=
  List.Forall₂ (List.Forall₂ (fun a c => a.1 = c.1 ∧ RelS p w a.2 c.2)) env c

theorem RelS.conc {s : Slice V} {t : Slice Int} (h : RelS p w s t) : Shaped t := by
  have := h.shaped
  unfold Shaped at *
  rw [← h.rs.1, ← this, h.rs.2.length_eq]

theorem RelS.one {a : V} {c : Int} (h : RelV p (rho p w) a c) : RelS p w ⟨[], [a]⟩ ⟨[], [c]⟩ :=
  ⟨⟨rfl, .cons h .nil⟩, rfl⟩

theorem RelS.cells {s : Slice V} {t : Slice Int} (h : RelS p w s t) : ∀ c ∈ t.values, 0 ≤ c ∧ c < p := by
  intro c hc
  obtain ⟨i, hi⟩ := List.mem_iff_getElem?.1 hc
  rcases forall₂_getElem? h.rs.2 i with ⟨_, f1⟩ | ⟨x, y, _, f1, f3⟩
  · rw [hi] at f1; cases f1
  · rw [hi] at f1; cases f1; exact f3.canon

/-- A slice of unknown cells stands for every array of its shape. -/
theorem RelS.unknown {t : Slice Int} (ht : Shaped t) (hc : ∀ c ∈ t.values, 0 ≤ c ∧ c < p) :
    RelS p w (newWithRoute t.route .nonQuadratic) t := by
  refine ⟨⟨rfl, ?_⟩, newWithRoute_shaped _ _⟩
  have : (newWithRoute t.route (AExpr.nonQuadratic : V)).values = List.replicate t.values.length .nonQuadratic := by
    rw [ht]; simp [newWithRoute, foldl_mul_eq]
  rw [this]
  generalize t.values = l at hc
  induction l with
  | nil => exact .nil
  | cons a l ih =>
    exact .cons (RelV.nonQuadratic (hc a (.head _))) (ih fun c h => hc c (.tail _ h))

theorem single_rel {s : Slice V} {t : Slice Int} (h : RelS p w s t) {a : V} {c : Int}
    (ha : single s = .ok a) (hc : single t = .ok c) : RelV p (rho p w) a c := by
  unfold single at ha hc
  rw [← h.rs.1] at hc
  split at ha
  · rename_i he
    rw [if_pos he] at hc
    have hr : s.route = [] := by simpa using he
    have hl : s.values.length = 1 := by rw [h.shaped, hr]; rfl
    have h2 := h.rs.2
    generalize s.values = l at *
    generalize t.values = m at *
    cases h2 with
    | nil => cases hl
    | cons x y =>
      cases y with
      | nil =>
        cases ha; cases hc
        exact x
      | cons _ _ => simp at hl
  · cases ha

theorem singles_rel {ss : List (Slice V)} {ts : List (Slice Int)} (h : List.Forall₂ (RelS p w) ss ts)
    {as : List V} {cs : List Int} (ha : singles ss = .ok as) (hc : singles ts = .ok cs) :
    List.Forall₂ (RelV p (rho p w)) as cs := by
  induction h generalizing as cs with
  | nil => cases ha; cases hc; exact .nil
  | @cons s t ss ts h1 _ ih =>
    simp only [singles] at ha hc
    cases hs : single s with
    | error e => rw [hs] at ha; cases ha
    | ok a =>
      cases ht : single t with
      | error e => rw [ht] at hc; cases hc
      | ok c =>
        rw [hs] at ha; rw [ht] at hc
        simp only at ha hc
        cases hx : singles ss with
        | error e => rw [hx] at ha; cases ha
        | ok as' =>
          cases hy : singles ts with
          | error e => rw [hy] at hc; cases hc
          | ok cs' =>
            rw [hx] at ha; rw [hy] at hc
            cases ha; cases hc
            exact .cons (single_rel h1 hs ht) (ih hx hy)

theorem singles_length {α : Type} {ss : List (Slice α)} {as : List α} (h : singles ss = .ok as) :
    as.length = ss.length := by
  induction ss generalizing as with
  | nil => cases h; rfl
  | cons s ss ih =>
    simp only [singles] at h
    split at h
    · cases h
    · cases hx : singles ss with
      | error e => rw [hx] at h; cases h
      | ok as' => rw [hx] at h; cases h; simp [ih hx]

theorem singles_one {α : Type} {l : List (Slice α)} {a : α} (h : singles l = .ok [a]) :
    ∃ s, l = [s] ∧ single s = .ok a := by
  have hlen := singles_length h
  cases l with
  | nil => cases h
  | cons s l =>
    cases l with
    | nil =>
      simp only [singles] at h
      split at h
      · cases h
      · rename_i v hv; cases h; exact ⟨s, rfl, hv⟩
    | cons s' l => simp at hlen

theorem mapM_length {α γ : Type} {f : α → Option γ} : ∀ (l : List α) (m : List γ),
    l.mapM f = some m → m.length = l.length := by
  intro l
  induction l with
  | nil => intro m h; simp at h; subst h; rfl
  | cons a l ih =>
    intro m h
    rw [List.mapM_cons] at h
    cases ha : f a with
    | none => rw [ha] at h; cases h
    | some b =>
      cases hl : l.mapM f with
      | none => rw [ha, hl] at h; cases h
      | some n => rw [ha, hl] at h; cases h; simp [ih n hl]

/-- Known indices are the concrete ones. -/
theorem usizes_rel {vs : List V} {cs : List Int} (h : List.Forall₂ (RelV p (rho p w)) vs cs)
    {is : List Nat} (hs : vs.mapM getUsize = some is) : cs.mapM toUsize = some is := by
  induction h generalizing is with
  | nil => simpa using hs
  | @cons v c vs cs h1 _ ih =>
    rw [List.mapM_cons] at hs ⊢
    cases hv : getUsize v with
    | none => rw [hv] at hs; cases hs
    | some k =>
      cases hx : vs.mapM getUsize with
      | none => rw [hv, hx] at hs; cases hs
      | some ks =>
        rw [hv, hx] at hs
        cases hs
        have : toUsize c = some k := by
          cases v with
          | number n => rw [← h1.number n rfl]; exact hv
          | _ => cases hv
        rw [this, ih hx]
        rfl

theorem getUsize_rel {v : V} {c : Int} (h : RelV p (rho p w) v c) {k : Nat}
    (hv : getUsize v = some k) : toUsize c = some k := by
  cases v with
  | number n => rw [← h.number n rfl]; exact hv
  | _ => cases hv

theorem position_rel {vs : List V} {cs : List Int} (h : List.Forall₂ (RelV p (rho p w)) vs cs)
    {pos : Option (List Nat)} {is : List Nat} (hs : position vs = .ok pos)
    (hc : cPosition cs = .ok is) : (pos = none ∨ pos = some is) ∧ is.length = vs.length := by
  unfold cPosition at hc
  cases hm : cs.mapM toUsize with
  | none => rw [hm] at hc; cases hc
  | some js =>
    rw [hm] at hc
    cases hc
    refine ⟨?_, by rw [mapM_length _ _ hm, h.length_eq]⟩
    unfold position at hs
    split at hs
    · cases hs
    · cases hs
      cases hx : vs.mapM getUsize with
      | none => exact .inl rfl
      | some ks =>
        rw [usizes_rel h hx] at hm
        cases hm
        exact .inr rfl

theorem getOne_ok {α : Type} {l : List (Slice α)} {s : Slice α} (h : getOne l = .ok s) : l = [s] := by
  unfold getOne at h
  split at h
  · cases h; rfl
  · cases h

theorem onlyOne_ok {α : Type} {x : Ax (List (Slice α))} {M : List (Slice α)} (h : onlyOne x = .ok M) :
    x = .ok M ∧ ∃ s, M = [s] := by
  unfold onlyOne at h
  split at h
  · cases h
  · rename_i l
    cases ho : getOne l with
    | error e => rw [ho] at h; cases h
    | ok s => rw [ho] at h; cases h; rw [getOne_ok ho]; exact ⟨rfl, s, rfl⟩

theorem getBool_rel {v : V} {c : Int} (h : RelV p (rho p w) v c) {b : Bool}
    (hb : getBool v p = some b) : asBool c p = b := by
  cases v with
  | number n => rw [← h.number n rfl]; simpa [getBool] using hb
  | _ => cases hb

/-! ### Number of dimensions -/

theorem nd_rel {env : List (List (Nat × Slice V))} {c : CEnv} (hE : RelE p w env c) (e : AExp) :
    nd env e = nd c e := by
  induction e with
  | var x is _ =>
    simp only [nd]
    rcases envGet_rel hE x with ⟨g1, g2⟩ | ⟨v, u, g1, g2, g3⟩
    · rw [g1, g2]
    · rw [g1, g2]; simp only [g3.rs.1]
  | sw c a b _ iha ihb => simp only [nd, iha, ihb]
  | arr es ih => simp only [nd, ih]
  | uni v n ihv _ => simp only [nd, ihv]
  | cons e es ih _ => simp only [nd, ih]
  | num _ => rfl
  | sig _ _ _ _ => rfl
  | bin _ _ _ _ _ => rfl
  | un _ _ _ => rfl
  | nil => rfl

/-- All arrays of the variables have as many cells as their dimensions say. -/
def ShapedE (c : CEnv) : Prop := ∀ b ∈ c, ∀ x ∈ b, Shaped x.2

theorem blockGet_mem {α : Type} {b : List (Nat × α)} {x : Nat} {s : α} (h : blockGet b x = some s) :
    (x, s) ∈ b := by
  induction b with
  | nil => cases h
  | cons a b ih =>
    obtain ⟨y, t⟩ := a
    simp only [blockGet] at h
    split at h
    · rename_i hy; cases h; subst hy; exact .head _
    · exact .tail _ (ih h)

theorem envGet_mem {α : Type} {c : List (List (Nat × α))} {x : Nat} {s : α} (h : envGet c x = some s) :
    ∃ b ∈ c, (x, s) ∈ b := by
  induction c with
  | nil => cases h
  | cons b c ih =>
    simp only [envGet] at h
    split at h
    · rename_i v hb; cases h; exact ⟨b, .head _, blockGet_mem hb⟩
    · obtain ⟨b', h1, h2⟩ := ih h; exact ⟨b', .tail _ h1, h2⟩

theorem cSignals_shaped (w : Nat → Int) (s : Nat) (dims : List Nat) : Shaped (cSignals w s dims) := by
  simp [Shaped, cSignals]

theorem map_one {α : Type} {x : Ax (Slice α)} {M : List (Slice α)} (h : x.map ([·]) = .ok M) :
    ∃ s, x = .ok s ∧ M = [s] := by
  cases x with
  | error e => cases h
  | ok s => cases h; exact ⟨s, rfl, rfl⟩

theorem cPosition_length {vs : List Int} {is : List Nat} (h : cPosition vs = .ok is) :
    is.length = vs.length := by
  unfold cPosition at h
  split at h
  · cases h
  · rename_i js hm; cases h; exact mapM_length _ _ hm

/-- Lists of expressions have as many values as entries. -/
theorem cEval_len {field : Int} {c : CEnv} (e : AExp) {n : Nat} (hn : nd.len e = some n)
    {M : List (Slice Int)} (h : cEval field w c e = .ok M) : M.length = n := by
  induction e generalizing n M with
  | nil => cases hn; cases h; rfl
  | cons e es _ ih =>
    simp only [nd.len] at hn
    cases hm : nd.len es with
    | none => rw [hm] at hn; cases hn
    | some m =>
      rw [hm] at hn
      cases hn
      simp only [cEval] at h
      split at h
      · cases h
      · split at h
        · cases h
        · cases hx : cEval field w c es with
          | error e => rw [hx] at h; cases h
          | ok y => rw [hx] at h; cases h; simp [ih hm hx]
  | _ => cases hn

/-- `nd` is the number of dimensions of the (first) value. -/
theorem cEval_nd {field : Int} {c : CEnv} (hc : ShapedE c) (e : AExp) {n : Nat}
    (hn : nd c e = some n) {M : List (Slice Int)} (h : cEval field w c e = .ok M) :
    ∃ s rest, M = s :: rest ∧ s.route.length = n := by
  induction e generalizing n M with
  | num v => cases hn; cases h; exact ⟨_, _, rfl, rfl⟩
  | sig s dims is _ =>
    simp only [nd] at hn
    cases hm : nd.len is with
    | none => rw [hm] at hn; cases hn
    | some m =>
      rw [hm] at hn
      cases hn
      simp only [cEval] at h
      split at h
      · cases h
      · rename_i js hj
        split at h
        · cases h
        · rename_i vs hv
          split at h
          · cases h
          · rename_i pos hp
            obtain ⟨r, hr, rfl⟩ := map_one h
            obtain ⟨_, _, g⟩ := access_shape (cSignals_shaped w s dims) hr
            refine ⟨r, [], rfl, ?_⟩
            rw [g, List.length_drop, cPosition_length hp, singles_length hv, cEval_len is hm hj]
            rfl
  | var x is _ =>
    simp only [nd] at hn
    cases hg : envGet c x with
    | none =>
      simp only [cEval, hg] at h
      split at h
      · cases h
      · split at h
        · cases h
        · split at h <;> cases h
    | some s =>
      rw [hg] at hn
      simp only at hn
      cases hm : nd.len is with
      | none => rw [hm] at hn; cases hn
      | some m =>
        rw [hm] at hn
        cases hn
        simp only [cEval] at h
        split at h
        · cases h
        · rename_i js hj
          split at h
          · cases h
          · rename_i vs hv
            split at h
            · cases h
            · rename_i pos hp
              rw [hg] at h
              obtain ⟨r, hr, rfl⟩ := map_one h
              obtain ⟨b, hb, hx⟩ := envGet_mem hg
              obtain ⟨_, _, g⟩ := access_shape (hc b hb _ hx) hr
              refine ⟨r, [], rfl, ?_⟩
              rw [g, List.length_drop, cPosition_length hp, singles_length hv, cEval_len is hm hj]
  | bin o l r _ _ =>
    cases hn
    simp only [cEval] at h
    split at h
    · cases h
    · split at h
      · cases h
      · split at h
        · split at h
          · cases h
          · cases h; exact ⟨_, _, rfl, rfl⟩
        · cases h
  | un o e _ =>
    cases hn
    simp only [cEval] at h
    split at h
    · cases h
    · split at h
      · cases h; exact ⟨_, _, rfl, rfl⟩
      · cases h
  | sw c0 a b _ iha ihb =>
    simp only [nd] at hn
    split at hn
    · rename_i hab
      simp only [cEval] at h
      split at h
      · cases h
      · split at h
        · split at h
          · exact iha hn (onlyOne_ok h).1
          · exact ihb (hab ▸ hn) (onlyOne_ok h).1
        · cases h
    · cases hn
  | arr es ih =>
    simp only [nd] at hn
    cases hm : nd c es with
    | none => rw [hm] at hn; cases hn
    | some m =>
      rw [hm] at hn
      cases hn
      simp only [cEval] at h
      split at h
      · cases h
      · rename_i vs hv
        obtain ⟨r, hr, rfl⟩ := map_one h
        obtain ⟨_, s, rest, e1, e2⟩ := inlineArray_shape hr
        obtain ⟨s', rest', f1, f2⟩ := ih hm hv
        rw [e1] at f1
        cases f1
        exact ⟨r, [], rfl, by rw [e2, f2]⟩
  | uni v n ihv _ =>
    simp only [nd] at hn
    cases hm : nd c v with
    | none => rw [hm] at hn; cases hn
    | some m =>
      rw [hm] at hn
      cases hn
      simp only [cEval] at h
      split at h
      · cases h
      · split at h
        · split at h
          · cases h
          · split at h
            · cases h
            · rename_i vs hv
              split at h
              · cases h
              · rename_i s hs
                obtain ⟨r, hr, rfl⟩ := map_one h
                obtain ⟨_, e2⟩ := uniformArray_shape hr
                obtain ⟨s', rest', f1, f2⟩ := ihv hm hv
                rw [getOne_ok hs] at f1
                cases f1
                exact ⟨r, [], rfl, by rw [e2]; simp [f2]⟩
        · cases h
  | nil => cases hn
  | cons e es ih _ =>
    simp only [nd] at hn
    simp only [cEval] at h
    split at h
    · cases h
    · rename_i vs hv
      split at h
      · cases h
      · rename_i s hs
        obtain ⟨s', rest', f1, f2⟩ := ih hn hv
        rw [getOne_ok hs] at f1
        cases f1
        cases hx : cEval field w c es with
        | error e => rw [hx] at h; cases h
        | ok y => rw [hx] at h; cases h; exact ⟨s, y, rfl, f2⟩

/-- Arrays of field elements of the right size. -/
def GoodS (p : Nat) (t : Slice Int) : Prop := Shaped t ∧ ∀ c ∈ t.values, 0 ≤ c ∧ c < (p : Int)

def GoodE (p : Nat) (c : CEnv) : Prop := ∀ b ∈ c, ∀ x ∈ b, GoodS p x.2

def Canon (p : Nat) (a b : Int) : Prop := a = b ∧ 0 ≤ b ∧ b < (p : Int)

theorem GoodS.rs {t : Slice Int} (h : GoodS p t) : RS (Canon p) t t :=
  ⟨rfl, List.forall₂_same.2 fun x hx => ⟨rfl, h.2 x hx⟩⟩

theorem RS.good {s t : Slice Int} (h : RS (Canon p) s t) : ∀ c ∈ t.values, 0 ≤ c ∧ c < (p : Int) := by
  intro c hc
  obtain ⟨i, hi⟩ := List.mem_iff_getElem?.1 hc
  rcases forall₂_getElem? h.2 i with ⟨_, f1⟩ | ⟨x, y, _, f1, f3⟩
  · rw [hi] at f1; cases f1
  · rw [hi] at f1; cases f1; exact f3.2

theorem insertVoid_good {s n s' : Slice Int} {is : List Nat} (hs : GoodS p s) (hn : GoodS p n)
    (h : insertVoid s is n = .ok s') : GoodS p s' :=
  ⟨insertVoid_shaped hs.1 h, ((insertVoid_rel hs.rs hn.rs is).ok h h).good⟩

theorem access_good {s r : Slice Int} {is : List Nat} (hs : GoodS p s) (h : access s is = .ok r) :
    GoodS p r :=
  ⟨(access_shape hs.1 h).1, ((access_rel hs.rs is).ok h h).good⟩

theorem single_good {s : Slice Int} {c : Int} (hs : GoodS p s) (h : single s = .ok c) :
    0 ≤ c ∧ c < (p : Int) := by
  unfold single at h
  split at h
  · split at h
    · rename_i v hv; cases h; exact hs.2 _ (List.mem_of_getLast? hv)
    · cases h
  · cases h

theorem cEval_good (hp : 1 < p) (hw : ∀ s, 0 ≤ w s ∧ w s < (p : Int)) {c : CEnv} (hc : GoodE p c)
    (e : AExp) (hl : e.Lits p) {M : List (Slice Int)} (h : cEval p w c e = .ok M) :
    ∀ t ∈ M, GoodS p t := by
  have one : ∀ {v : Int}, 0 ≤ v ∧ v < (p : Int) → ∀ t ∈ [(⟨[], [v]⟩ : Slice Int)], GoodS p t := by
    intro v hv t ht
    simp only [List.mem_singleton] at ht
    subst ht
    exact ⟨rfl, by simpa using hv⟩
  have hz : (0 : Int) ≤ 0 ∧ (0 : Int) < p := by omega
  induction e generalizing M with
  | num v => cases h; exact one hl
  | sig s dims is ih =>
    simp only [cEval] at h
    split at h
    · cases h
    · split at h
      · cases h
      · split at h
        · cases h
        · obtain ⟨r, hr, rfl⟩ := map_one h
          intro t ht
          simp only [List.mem_singleton] at ht
          subst ht
          refine access_good ⟨cSignals_shaped w s dims, ?_⟩ hr
          intro c hc
          simp only [cSignals, List.mem_map] at hc
          obtain ⟨i, _, rfl⟩ := hc
          exact hw _
  | var x is ih =>
    simp only [cEval] at h
    split at h
    · cases h
    · split at h
      · cases h
      · split at h
        · cases h
        · split at h
          · cases h
          · rename_i s hs
            obtain ⟨r, hr, rfl⟩ := map_one h
            intro t ht
            simp only [List.mem_singleton] at ht
            subst ht
            obtain ⟨b, hb, hx⟩ := envGet_mem hs
            exact access_good (hc b hb _ hx) hr
  | bin o l r ihl ihr =>
    simp only [cEval] at h
    split at h
    · cases h
    · rename_i ls h1
      split at h
      · cases h
      · rename_i rs h2
        split at h
        · rename_i a b ea eb
          split at h
          · cases h
          · rename_i v hv
            cases h
            obtain ⟨s, rfl, hs⟩ := singles_one ea
            exact one (Verif.Exec.cOp_canon hp o (single_good (ihl hl.1 h1 _ (.head _)) hs) hv)
        · cases h
  | un o e _ =>
    simp only [cEval] at h
    split at h
    · cases h
    · split at h
      · cases h; exact one (Verif.Exec.cUOp_canon hp o _)
      · cases h
  | sw c0 a b _ iha ihb =>
    simp only [cEval] at h
    split at h
    · cases h
    · split at h
      · split at h
        · exact iha hl.2.1 (onlyOne_ok h).1
        · exact ihb hl.2.2 (onlyOne_ok h).1
      · cases h
  | arr es ih =>
    simp only [cEval] at h
    split at h
    · cases h
    · rename_i vs hv
      obtain ⟨r, hr, rfl⟩ := map_one h
      intro t ht
      simp only [List.mem_singleton] at ht
      subst ht
      have hg := ih hl hv
      exact ⟨(inlineArray_shape hr).1, ((inlineArray_rel
        (List.forall₂_same.2 fun x hx => (hg x hx).rs) (⟨rfl, hz⟩ : Canon p 0 0)).ok hr hr).good⟩
  | uni v n ihv _ =>
    simp only [cEval] at h
    split at h
    · cases h
    · split at h
      · split at h
        · cases h
        · split at h
          · cases h
          · rename_i vs hv
            split at h
            · cases h
            · rename_i s hs
              obtain ⟨r, hr, rfl⟩ := map_one h
              intro t ht
              simp only [List.mem_singleton] at ht
              subst ht
              have hg := ihv hl.1 hv s (by rw [getOne_ok hs]; exact .head _)
              exact ⟨(uniformArray_shape hr).1, ((uniformArray_rel hg.rs
                (⟨rfl, hz⟩ : Canon p 0 0) _).ok hr hr).good⟩
      · cases h
  | nil => cases h; intro t ht; cases ht
  | cons e es ihe ihes =>
    simp only [cEval] at h
    split at h
    · cases h
    · rename_i vs hv
      split at h
      · cases h
      · rename_i s hs
        cases hx : cEval p w c es with
        | error e => rw [hx] at h; cases h
        | ok y =>
          rw [hx] at h; cases h
          intro t ht
          rcases List.mem_cons.1 ht with rfl | ht
          · exact ihe hl.1 hv _ (by rw [getOne_ok hs]; exact .head _)
          · exact ihes hl.2 hx t ht

theorem RelE.good {env : List (List (Nat × Slice V))} {c : CEnv} (h : RelE p w env c) : GoodE p c := by
  intro b hb x hx
  obtain ⟨i, hi⟩ := List.mem_iff_getElem?.1 hb
  rcases forall₂_getElem? h i with ⟨_, f1⟩ | ⟨b', c', _, f1, f3⟩
  · rw [hi] at f1; cases f1
  · rw [hi] at f1; cases f1
    obtain ⟨j, hj⟩ := List.mem_iff_getElem?.1 hx
    rcases forall₂_getElem? f3 j with ⟨_, f1⟩ | ⟨x', y', _, f1, f3⟩
    · rw [hj] at f1; cases f1
    · rw [hj] at f1; cases f1; exact ⟨f3.2.conc, f3.2.cells⟩

theorem RelE.shaped {env : List (List (Nat × Slice V))} {c : CEnv} (h : RelE p w env c) : ShapedE c := by
  intro b hb x hx
  obtain ⟨i, hi⟩ := List.mem_iff_getElem?.1 hb
  rcases forall₂_getElem? h i with ⟨_, f1⟩ | ⟨b', c', _, f1, f3⟩
  · rw [hi] at f1; cases f1
  · rw [hi] at f1; cases f1
    obtain ⟨j, hj⟩ := List.mem_iff_getElem?.1 hx
    rcases forall₂_getElem? f3 j with ⟨_, f1⟩ | ⟨x', y', _, f1, f3⟩
    · rw [hj] at f1; cases f1
    · rw [hj] at f1; cases f1; exact f3.2.conc

end Verif.ArrExec
