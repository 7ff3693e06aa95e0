import Verif.ArrExecSim

/-!
When the symbolic execution does not replace arrays by single cells.
-/

set_option linter.unusedSimpArgs false
set_option linter.unusedVariables false

namespace Verif.ArrExec

open Verif.ModArith Verif.Algebra Verif.Memory
open Verif.Exec (Op UOp V applyOp applyUOp cOp cUOp envGet envSet envAdd blockGet blockSet)

/-- The strict evaluation is the evaluation of the code unless it stops with `lost`. -/
theorem eval_strict (field : Int) (env : List (List (Nat × Slice V))) (e : AExp) :
    eval true field env e = .error .lost ∨ eval true field env e = eval false field env e := by
  have hread : ∀ (s : Slice V) (n : Nat) (pos : Option (List Nat)),
      readAt true s n pos = .error .lost ∨ readAt true s n pos = readAt false s n pos := by
    intro s n pos
    cases pos with
    | none =>
      simp only [readAt, Bool.true_and, Bool.false_and]
      split
      · exact .inl rfl
      · exact .inr (by simp)
    | some is => exact .inr rfl
  induction e with
  | num v => exact .inr rfl
  | sig s dims is ih =>
    simp only [eval]
    rcases ih with h | h
    · rw [h]; exact .inl rfl
    · rw [h]
      split
      · exact .inr rfl
      · split
        · exact .inr rfl
        · split
          · exact .inr rfl
          · exact hread _ _ _
  | var x is ih =>
    simp only [eval]
    rcases ih with h | h
    · rw [h]; exact .inl rfl
    · rw [h]
      split
      · exact .inr rfl
      · split
        · exact .inr rfl
        · split
          · exact .inr rfl
          · split
            · exact .inr rfl
            · exact hread _ _ _
  | bin o l r ihl ihr =>
    simp only [eval]
    rcases ihl with h | h
    · rw [h]; exact .inl rfl
    · rw [h]
      split
      · exact .inr rfl
      · rcases ihr with h | h
        · rw [h]; exact .inl rfl
        · rw [h]; exact .inr rfl
  | un o e ih =>
    simp only [eval]
    rcases ih with h | h
    · rw [h]; exact .inl rfl
    · rw [h]; exact .inr rfl
  | sw c a b ihc iha ihb =>
    simp only [eval]
    rcases ihc with h | h
    · rw [h]; exact .inl rfl
    · rw [h]
      split
      · exact .inr rfl
      · split
        · split
          · rcases iha with h | h
            · rw [h]; exact .inl rfl
            · rw [h]; exact .inr rfl
          · rcases ihb with h | h
            · rw [h]; exact .inl rfl
            · rw [h]; exact .inr rfl
          · simp only [Bool.true_and, Bool.false_and]
            split
            · exact .inl rfl
            · exact .inr (by simp)
        · exact .inr rfl
  | arr es ih =>
    simp only [eval]
    rcases ih with h | h
    · rw [h]; exact .inl rfl
    · rw [h]; exact .inr rfl
  | uni v n ihv ihn =>
    simp only [eval]
    rcases ihn with h | h
    · rw [h]; exact .inl rfl
    · rw [h]
      split
      · exact .inr rfl
      · split
        · split
          · exact .inr rfl
          · rcases ihv with h | h
            · rw [h]; exact .inl rfl
            · rw [h]; exact .inr rfl
        · exact .inr rfl
  | nil => exact .inr rfl
  | cons e es ihe ihes =>
    simp only [eval]
    rcases ihe with h | h
    · rw [h]; exact .inl rfl
    · rw [h]
      split
      · exact .inr rfl
      · split
        · exact .inr rfl
        · rcases ihes with h | h
          · rw [h]; exact .inl rfl
          · rw [h]; exact .inr rfl

theorem condition_strict (field : Int) (c : AExp) (st : ASt) :
    condition true field c st = .error .lost ∨
      condition true field c st = condition false field c st := by
  unfold condition
  rcases eval_strict field st.env c with h | h
  · rw [h]; exact .inl rfl
  · rw [h]; exact .inr rfl

theorem inBlock_strict {f g : ASt → Ax ASt} (h : ∀ st, f st = .error .lost ∨ f st = g st) (st : ASt) :
    inBlock f st = .error .lost ∨ inBlock f st = inBlock g st := by
  unfold inBlock
  rcases h { st with env := [] :: st.env } with h | h
  · rw [h]; exact .inl rfl
  · rw [h]; exact .inr rfl

/-- The same for statements. -/
theorem exec_strict (fuel : Nat) (field : Int) : ∀ (s : AStmt) (st : ASt),
    exec true fuel field s st = .error .lost ∨ exec true fuel field s st = exec false fuel field s st := by
  intro s
  induction s with
  | skip => intro st; exact .inr rfl
  | decl x ds =>
    intro st
    simp only [exec]
    rcases eval_strict field st.env ds with h | h
    · rw [h]; exact .inl rfl
    · rw [h]; exact .inr rfl
  | assign x is e =>
    intro st
    simp only [exec]
    rcases eval_strict field st.env is with h | h
    · rw [h]; exact .inl rfl
    · rw [h]
      split
      · exact .inr rfl
      · split
        · exact .inr rfl
        · split
          · exact .inr rfl
          · rcases eval_strict field st.env e with h | h
            · rw [h]; exact .inl rfl
            · rw [h]; exact .inr rfl
  | cassign s dims is e =>
    intro st
    simp only [exec]
    rcases eval_strict field st.env is with h | h
    · rw [h]; exact .inl rfl
    · rw [h]
      split
      · exact .inr rfl
      · split
        · exact .inr rfl
        · split
          · exact .inr rfl
          · exact .inr rfl
          · rcases eval_strict field st.env e with h | h
            · rw [h]; exact .inl rfl
            · rw [h]; exact .inr rfl
  | check l r =>
    intro st
    simp only [exec]
    split
    · exact .inr rfl
    · rcases eval_strict field st.env l with h | h
      · rw [h]; exact .inl rfl
      · rw [h]
        split
        · exact .inr rfl
        · rcases eval_strict field st.env r with h | h
          · rw [h]; exact .inl rfl
          · rw [h]; exact .inr rfl
  | seq a b iha ihb =>
    intro st
    simp only [exec]
    rcases iha st with h | h
    · rw [h]; exact .inl rfl
    · rw [h]
      split
      · exact .inr rfl
      · exact ihb _
  | ite c t e iht ihe =>
    intro st
    simp only [exec]
    rcases condition_strict field c st with h | h
    · rw [h]; exact .inl rfl
    · rw [h]
      split
      · exact .inr rfl
      · exact inBlock_strict iht st
      · exact inBlock_strict ihe st
      · rcases inBlock_strict iht { st with unknown := true } with h | h
        · rw [h]; exact .inl rfl
        · rw [h]
          split
          · exact .inr rfl
          · rename_i st1 _
            rcases inBlock_strict ihe st1 with h | h
            · rw [h]; exact .inl rfl
            · rw [h]; exact .inr rfl
  | loop c b ih =>
    intro st
    simp only [exec]
    have key : ∀ (n : Nat) (st : ASt),
        loopKnown (condition true field c) (inBlock (exec true fuel field b)) n st = .error .lost ∨
        loopKnown (condition true field c) (inBlock (exec true fuel field b)) n st =
          loopKnown (condition false field c) (inBlock (exec false fuel field b)) n st := by
      intro n
      induction n with
      | zero => intro st; exact .inr rfl
      | succ n ihn =>
        intro st
        simp only [loopKnown]
        rcases condition_strict field c st with h | h
        · rw [h]; exact .inl rfl
        · rw [h]
          split
          · exact .inr rfl
          · exact .inr rfl
          · exact .inr rfl
          · rcases inBlock_strict ih st with h | h
            · rw [h]; exact .inl rfl
            · rw [h]
              split
              · exact .inr rfl
              · exact ihn _
    exact key fuel st
  | block b ih => intro st; simp only [exec]; exact inBlock_strict ih st

/-! ### A static condition -/

/-- Number of dimensions of an expression, for variables with `Γ x` dimensions. -/
def sdim (Γ : Nat → Nat) : AExp → Option Nat
  | .num _ => some 0
  | .sig _ dims is => (nd.len is).map fun n => dims.length - n
  | .var x is => (nd.len is).map fun n => Γ x - n
  | .bin _ _ _ => some 0
  | .un _ _ => some 0
  | .sw _ a b => if sdim Γ a = sdim Γ b then sdim Γ a else none
  | .arr es => (sdim Γ es).map (· + 1)
  | .uni v _ => (sdim Γ v).map (· + 1)
  | .nil => none
  | .cons e _ => sdim Γ e

/-- Every indexed read goes down to a single cell and every inline conditional chooses between single
cells. -/
def AExp.Cellwise (Γ : Nat → Nat) : AExp → Prop
  | .num _ => True
  | .sig _ dims is => is.Cellwise Γ ∧ (is = .nil ∨ nd.len is = some dims.length)
  | .var x is => is.Cellwise Γ ∧ (is = .nil ∨ nd.len is = some (Γ x))
  | .bin _ l r => l.Cellwise Γ ∧ r.Cellwise Γ
  | .un _ e => e.Cellwise Γ
  | .sw c a b => c.Cellwise Γ ∧ a.Cellwise Γ ∧ b.Cellwise Γ ∧ sdim Γ a = some 0 ∧ sdim Γ b = some 0
  | .arr es => es.Cellwise Γ
  | .uni v n => v.Cellwise Γ ∧ n.Cellwise Γ
  | .nil => True
  | .cons e es => e.Cellwise Γ ∧ es.Cellwise Γ

/-- The same for statements; every declaration of `x` has `Γ x` dimensions. -/
def AStmt.Cellwise (Γ : Nat → Nat) : AStmt → Prop
  | .skip => True
  | .decl x ds => ds.Cellwise Γ ∧ nd.len ds = some (Γ x)
  | .assign _ is e => is.Cellwise Γ ∧ e.Cellwise Γ
  | .cassign _ _ is e => is.Cellwise Γ ∧ e.Cellwise Γ
  | .check l r => l.Cellwise Γ ∧ r.Cellwise Γ
  | .seq a b => a.Cellwise Γ ∧ b.Cellwise Γ
  | .ite c t e => c.Cellwise Γ ∧ t.Cellwise Γ ∧ e.Cellwise Γ
  | .loop c b => c.Cellwise Γ ∧ b.Cellwise Γ
  | .block b => b.Cellwise Γ

def Dims (Γ : Nat → Nat) (env : List (List (Nat × Slice V))) : Prop :=
  ∀ b ∈ env, ∀ x ∈ b, x.2.route.length = Γ x.1

theorem Dims.get {Γ : Nat → Nat} {env : List (List (Nat × Slice V))} (h : Dims Γ env) {x : Nat}
    {s : Slice V} (hg : envGet env x = some s) : s.route.length = Γ x := by
  obtain ⟨b, hb, hx⟩ := envGet_mem hg
  exact h b hb _ hx

theorem nd_zero {Γ : Nat → Nat} {env : List (List (Nat × Slice V))} (h : Dims Γ env) (e : AExp)
    (hs : sdim Γ e = some 0) : nd env e = some 0 := by
  induction e with
  | num v => rfl
  | sig s dims is _ => exact hs
  | var x is _ =>
    simp only [nd]
    split
    · rfl
    · rename_i s hg
      rw [h.get hg]; exact hs
  | bin o l r _ _ => rfl
  | un o e _ => rfl
  | sw c a b _ iha ihb =>
    simp only [sdim] at hs
    split at hs
    · rename_i hab
      simp only [nd]
      rw [iha hs, ihb (hab ▸ hs), if_pos rfl]
    · cases hs
  | arr es _ =>
    simp only [sdim] at hs
    cases hx : sdim Γ es with
    | none => rw [hx] at hs; cases hs
    | some n => rw [hx] at hs; simp at hs
  | uni v n _ _ =>
    simp only [sdim] at hs
    cases hx : sdim Γ v with
    | none => rw [hx] at hs; cases hs
    | some n => rw [hx] at hs; simp at hs
  | nil => cases hs
  | cons e es ih _ => exact ih hs

theorem eval_len {strict : Bool} {field : Int} {env : List (List (Nat × Slice V))} (e : AExp) {n : Nat}
    (hn : nd.len e = some n) {L : List (Slice V)} (h : eval strict field env e = .ok L) :
    L.length = n := by
  induction e generalizing n L with
  | nil => cases hn; cases h; rfl
  | cons e es _ ih =>
    simp only [nd.len] at hn
    cases hm : nd.len es with
    | none => rw [hm] at hn; cases hn
    | some m =>
      rw [hm] at hn
      cases hn
      simp only [eval] at h
      split at h
      · cases h
      · split at h
        · cases h
        · cases hx : eval strict field env es with
          | error e => rw [hx] at h; cases h
          | ok y => rw [hx] at h; cases h; simp [ih hm hx]
  | _ => cases hn

theorem eval_cellwise {Γ : Nat → Nat} {field : Int} {env : List (List (Nat × Slice V))} (h : Dims Γ env)
    (e : AExp) (hc : e.Cellwise Γ) : eval true field env e = eval false field env e := by
  have hread : ∀ (s : Slice V) (is : AExp) (js : List (Slice V)) (vs : List V) (pos : Option (List Nat)),
      eval false field env is = .ok js → singles js = .ok vs → position vs = .ok pos →
      (is = .nil ∨ nd.len is = some s.route.length) →
      readAt true s vs.length pos = readAt false s vs.length pos := by
    intro s is js vs pos hj hv hp hi
    cases pos with
    | some is => rfl
    | none =>
      rcases hi with rfl | hi
      · cases hj; cases hv
        simp [position] at hp
      · have : vs.length = s.route.length := by rw [singles_length hv, eval_len is hi hj]
        simp [readAt, this]
  induction e with
  | num v => rfl
  | sig s dims is ih =>
    simp only [eval]
    rw [ih hc.1]
    split
    · rfl
    · rename_i js hj
      split
      · rfl
      · rename_i vs hv
        split
        · rfl
        · rename_i pos hp
          exact hread _ is js vs pos hj hv hp hc.2
  | var x is ih =>
    simp only [eval]
    rw [ih hc.1]
    split
    · rfl
    · rename_i js hj
      split
      · rfl
      · rename_i vs hv
        split
        · rfl
        · rename_i pos hp
          split
          · rfl
          · rename_i s hs
            exact hread _ is js vs pos hj hv hp (by rw [h.get hs]; exact hc.2)
  | bin o l r ihl ihr => simp only [eval]; rw [ihl hc.1, ihr hc.2]
  | un o e ih => simp only [eval]; rw [ih hc]
  | sw c a b ihc iha ihb =>
    obtain ⟨h1, h2, h3, h4, h5⟩ := hc
    simp only [eval]
    rw [ihc h1, iha h2, ihb h3, nd_zero h a h4, nd_zero h b h5]
    simp
  | arr es ih => simp only [eval]; rw [ih hc]
  | uni v n ihv ihn => simp only [eval]; rw [ihv hc.1, ihn hc.2]
  | nil => rfl
  | cons e es ihe ihes => simp only [eval]; rw [ihe hc.1, ihes hc.2]

theorem blockSet_dims {Γ : Nat → Nat} {b b' : List (Nat × Slice V)} {x : Nat} {s : Slice V}
    (h : ∀ y ∈ b, y.2.route.length = Γ y.1) (hs : s.route.length = Γ x)
    (hb : blockSet b x s = some b') : ∀ y ∈ b', y.2.route.length = Γ y.1 := by
  induction b generalizing b' with
  | nil => cases hb
  | cons a b ih =>
    obtain ⟨y, v⟩ := a
    simp only [blockSet] at hb
    split at hb
    · rename_i hy
      cases hb
      intro z hz
      rcases List.mem_cons.1 hz with rfl | hz
      · rw [hs, hy]
      · exact h z (.tail _ hz)
    · cases hx : blockSet b x s with
      | none => rw [hx] at hb; cases hb
      | some r =>
        rw [hx] at hb; cases hb
        intro z hz
        rcases List.mem_cons.1 hz with rfl | hz
        · exact h _ (.head _)
        · exact ih (fun y hy => h y (.tail _ hy)) hx z hz

theorem envSet_dims {Γ : Nat → Nat} {A A' : List (List (Nat × Slice V))} {x : Nat} {s : Slice V}
    (h : Dims Γ A) (hs : s.route.length = Γ x) (hA : envSet A x s = some A') : Dims Γ A' := by
  induction A generalizing A' with
  | nil => cases hA
  | cons b A ih =>
    simp only [envSet] at hA
    split at hA
    · rename_i b' hb
      cases hA
      intro d hd
      rcases List.mem_cons.1 hd with rfl | hd
      · exact blockSet_dims (h b (.head _)) hs hb
      · exact h d (.tail _ hd)
    · cases hx : envSet A x s with
      | none => rw [hx] at hA; cases hA
      | some r =>
        rw [hx] at hA; cases hA
        intro d hd
        rcases List.mem_cons.1 hd with rfl | hd
        · exact h _ (.head _)
        · exact ih (fun d hd => h d (.tail _ hd)) hx d hd

theorem inBlock_dims {Γ : Nat → Nat} {f : ASt → Ax ASt}
    (hf : ∀ st st', Dims Γ st.env → f st = .ok st' → Dims Γ st'.env) {st st' : ASt}
    (h : Dims Γ st.env) (hb : inBlock f st = .ok st') : Dims Γ st'.env := by
  unfold inBlock at hb
  split at hb
  · cases hb
  · rename_i st1 h1
    cases hb
    have h0 : Dims Γ ([] :: st.env) := by
      intro b hb
      rcases List.mem_cons.1 hb with rfl | hb
      · intro x hx; cases hx
      · exact h b hb
    have := hf { st with env := [] :: st.env } st1 h0 h1
    intro b hb
    exact this b (List.mem_of_mem_tail hb)

/-- Dimensions stay those of the declarations. -/
theorem exec_dims {Γ : Nat → Nat} (strict : Bool) (fuel : Nat) (field : Int) : ∀ (s : AStmt),
    s.Cellwise Γ → ∀ (st st' : ASt), Dims Γ st.env → exec strict fuel field s st = .ok st' →
    Dims Γ st'.env := by
  intro s
  induction s with
  | skip => intro _ st st' hD h; cases h; exact hD
  | decl x ds =>
    intro hc st st' hD h
    simp only [exec] at h
    split at h
    · cases h
    · rename_i vs hv
      split at h
      · cases h
      · rename_i ns hs
        split at h
        · cases h
        · split at h
          · cases h
          · rename_i dims hd
            split at h
            · cases h
            · rename_i env he
              cases h
              have hl : dims.length = Γ x := by
                rw [mapM_length _ _ hd, singles_length hs, eval_len ds hc.2 hv]
              generalize hA : st.env = A at he hD
              cases A with
              | nil => cases he
              | cons b bs =>
                cases he
                intro d hd
                rcases List.mem_cons.1 hd with rfl | hd
                · intro y hy
                  rcases List.mem_cons.1 hy with rfl | hy
                  · exact hl
                  · exact hD b (.head _) y hy
                · exact hD d (.tail _ hd)
  | assign x is e =>
    intro hc st st' hD h
    simp only [exec] at h
    split at h
    · cases h
    · split at h
      · cases h
      · split at h
        · cases h
        · split at h
          · cases h
          · split at h
            · cases h
            · split at h
              · cases h
              · rename_i s hs
                split at h
                · cases h
                · rename_i s' hw
                  split at h
                  · cases h
                  · rename_i env he
                    cases h
                    refine envSet_dims hD ?_ he
                    rw [← hD.get hs]
                    unfold writeAt at hw
                    split at hw
                    · rw [(insertVoid_shape hw).1]
                    · rw [(insertVoid_shape hw).1]
  | cassign s dims is e =>
    intro hc st st' hD h
    simp only [exec] at h
    split at h
    · cases h
    · split at h
      · cases h
      · split at h
        · cases h
        · cases h
        · split at h
          · cases h
          · split at h
            · cases h
            · split at h
              · cases h
              · split at h
                · cases h
                · split at h
                  · cases h
                  · split at h
                    · cases h
                    · split at h
                      · cases h
                      · cases h; exact hD
  | check l r =>
    intro hc st st' hD h
    simp only [exec] at h
    split at h
    · cases h
    · split at h
      · cases h
      · split at h
        · cases h
        · split at h
          · split at h
            · cases h
            · split at h
              · cases h
              · cases h; exact hD
          · cases h
  | seq a b iha ihb =>
    intro hc st st' hD h
    simp only [exec] at h
    split at h
    · cases h
    · rename_i st1 h1
      exact ihb hc.2 st1 st' (iha hc.1 st st1 hD h1) h
  | ite c t e iht ihe =>
    intro hc st st' hD h
    obtain ⟨h1, h2, h3⟩ := hc
    simp only [exec] at h
    split at h
    · cases h
    · exact inBlock_dims (iht h2) hD h
    · exact inBlock_dims (ihe h3) hD h
    · split at h
      · cases h
      · rename_i st1 g1
        split at h
        · cases h
        · rename_i st2 g2
          cases h
          exact inBlock_dims (st' := st2) (ihe h3)
            (inBlock_dims (iht h2) (st := { st with unknown := true }) hD g1) g2
  | loop c b ih =>
    intro hc st st' hD h
    simp only [exec] at h
    have key : ∀ (n : Nat) (st st' : ASt), Dims Γ st.env →
        loopKnown (condition strict field c) (inBlock (exec strict fuel field b)) n st = .ok st' →
        Dims Γ st'.env := by
      intro n
      induction n with
      | zero => intro st st' _ h; cases h
      | succ n ihn =>
        intro st st' hD h
        simp only [loopKnown] at h
        split at h
        · cases h
        · cases h
        · cases h; exact hD
        · split at h
          · cases h
          · rename_i st1 g1
            exact ihn st1 st' (inBlock_dims (ih hc.2) hD g1) h
    exact key fuel st st' hD h
  | block b ih => intro hc st st' hD h; simp only [exec] at h; exact inBlock_dims (ih hc) hD h

theorem condition_cellwise {Γ : Nat → Nat} {field : Int} {c : AExp} (hc : c.Cellwise Γ) {st : ASt}
    (hD : Dims Γ st.env) : condition true field c st = condition false field c st := by
  unfold condition
  rw [eval_cellwise hD c hc]

theorem inBlock_cellwise {Γ : Nat → Nat} {f g : ASt → Ax ASt}
    (h : ∀ st, Dims Γ st.env → f st = g st) {st : ASt} (hD : Dims Γ st.env) :
    inBlock f st = inBlock g st := by
  unfold inBlock
  rw [h]
  intro b hb
  rcases List.mem_cons.1 hb with rfl | hb
  · intro x hx; cases hx
  · exact hD b hb

/-- Programs that only read single cells or whole arrays never lose an array. -/
theorem exec_cellwise {Γ : Nat → Nat} (fuel : Nat) (field : Int) : ∀ (s : AStmt), s.Cellwise Γ →
    ∀ (st : ASt), Dims Γ st.env → exec true fuel field s st = exec false fuel field s st := by
  intro s
  induction s with
  | skip => intro _ st _; rfl
  | decl x ds => intro hc st hD; simp only [exec]; rw [eval_cellwise hD ds hc.1]
  | assign x is e =>
    intro hc st hD; simp only [exec]; rw [eval_cellwise hD is hc.1, eval_cellwise hD e hc.2]
  | cassign s dims is e =>
    intro hc st hD; simp only [exec]; rw [eval_cellwise hD is hc.1, eval_cellwise hD e hc.2]
  | check l r =>
    intro hc st hD; simp only [exec]; rw [eval_cellwise hD l hc.1, eval_cellwise hD r hc.2]
  | seq a b iha ihb =>
    intro hc st hD
    simp only [exec]
    rw [iha hc.1 st hD]
    split
    · rfl
    · rename_i st1 h1
      exact ihb hc.2 st1 (exec_dims false fuel field a hc.1 st st1 hD h1)
  | ite c t e iht ihe =>
    intro hc st hD
    obtain ⟨h1, h2, h3⟩ := hc
    simp only [exec]
    rw [condition_cellwise h1 hD]
    split
    · rfl
    · exact inBlock_cellwise (iht h2) hD
    · exact inBlock_cellwise (ihe h3) hD
    · rw [inBlock_cellwise (iht h2) (st := { st with unknown := true }) hD]
      split
      · rfl
      · rename_i st1 g1
        rw [inBlock_cellwise (ihe h3) (inBlock_dims (exec_dims false fuel field t h2)
          (st := { st with unknown := true }) hD g1)]
  | loop c b ih =>
    intro hc st hD
    simp only [exec]
    have key : ∀ (n : Nat) (st : ASt), Dims Γ st.env →
        loopKnown (condition true field c) (inBlock (exec true fuel field b)) n st =
          loopKnown (condition false field c) (inBlock (exec false fuel field b)) n st := by
      intro n
      induction n with
      | zero => intro st _; rfl
      | succ n ihn =>
        intro st hD
        simp only [loopKnown]
        rw [condition_cellwise hc.1 hD, inBlock_cellwise (ih hc.2) hD]
        split
        · rfl
        · rfl
        · rfl
        · split
          · rfl
          · rename_i st1 g1
            exact ihn st1 (inBlock_dims (exec_dims false fuel field b hc.2) hD g1)
    exact key fuel st hD
  | block b ih => intro hc st hD; simp only [exec]; exact inBlock_cellwise (ih hc) hD

end Verif.ArrExec
