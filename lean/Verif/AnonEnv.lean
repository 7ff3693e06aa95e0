import Verif.AnonExpr

/-!
Environments with the counters of loops added to one block; reading of variables by expressions; tuple
assignments.
-/

namespace Verif.Anon

open Verif.Exec (envGet envSet envAdd blockGet blockSet)

set_option linter.unusedSimpArgs false
set_option linter.unusedVariables false

variable {V : Type} {O : Ops V} {T : Nat → Option Templ} {N : Names} {L : List Nat}

/-- `P` is `D` with the entries `ex` at the end of the block with `d` blocks above it. -/
inductive Sim (ex : List (Nat × V)) : Nat → List (List (Nat × V)) → List (List (Nat × V)) → Prop where
  | here (b : List (Nat × V)) (rest : List (List (Nat × V))) : Sim ex 0 (b :: rest) ((b ++ ex) :: rest)
  | push {d : Nat} {D P : List (List (Nat × V))} (b : List (Nat × V)) (h : Sim ex d D P) :
    Sim ex (d + 1) (b :: D) (b :: P)

theorem blockGet_app (a b : List (Nat × V)) (x : Nat) :
    blockGet (a ++ b) x = match blockGet a x with | some v => some v | none => blockGet b x := by
  induction a with
  | nil => rfl
  | cons y a ih =>
    obtain ⟨k, v⟩ := y
    simp only [List.cons_append, blockGet]
    split
    · rfl
    · exact ih

theorem blockGet_nm {b : List (Nat × V)} {x : Nat} (h : x ∉ b.map (·.1)) : blockGet b x = none := by
  induction b with
  | nil => rfl
  | cons y a ih =>
    obtain ⟨k, v⟩ := y
    simp only [List.map_cons, List.mem_cons, not_or] at h
    rw [blockGet, if_neg (fun e => h.1 e.symm)]
    exact ih h.2

theorem blockSet_nm {b : List (Nat × V)} {x : Nat} {v : V} (h : blockGet b x = none) :
    blockSet b x v = none := by
  induction b with
  | nil => rfl
  | cons y a ih =>
    obtain ⟨k, w⟩ := y
    rw [blockGet] at h
    split at h
    · cases h
    · rename_i hk
      rw [blockSet, if_neg hk, ih h]
      rfl

theorem blockSet_app {a b : List (Nat × V)} {x : Nat} {v : V} :
    blockSet (a ++ b) x v =
      match blockSet a x v with
      | some a' => some (a' ++ b)
      | none => (blockSet b x v).map (a ++ ·) := by
  induction a with
  | nil => simp [blockSet]
  | cons y a ih =>
    obtain ⟨k, w⟩ := y
    simp only [List.cons_append, blockSet]
    split
    · rfl
    · rw [ih]
      cases h : blockSet a x v with
      | some a' => rfl
      | none => simp only [Option.map_none]; cases blockSet b x v <;> rfl

theorem blockSet_other {b b' : List (Nat × V)} {x y : Nat} {v : V} (h : blockSet b x v = some b')
    (hy : y ≠ x) : blockGet b' y = blockGet b y := by
  induction b generalizing b' with
  | nil => cases h
  | cons z a ih =>
    obtain ⟨k, w⟩ := z
    rw [blockSet] at h
    split at h
    · rename_i hk
      cases h
      simp only [blockGet]
      rw [if_neg (fun e => hy (e.symm.trans hk)), if_neg (fun e => hy (e.symm.trans hk))]
    · cases hs : blockSet a x v with
      | none => rw [hs] at h; cases h
      | some a' =>
        rw [hs] at h
        cases h
        simp only [blockGet]
        rw [ih hs]

theorem envSet_other {A A' : List (List (Nat × V))} {x y : Nat} {v : V} (h : envSet A x v = some A')
    (hy : y ≠ x) : envGet A' y = envGet A y := by
  induction A generalizing A' with
  | nil => cases h
  | cons b A ih =>
    rw [envSet] at h
    cases hb : blockSet b x v with
    | some b' =>
      rw [hb] at h
      cases h
      simp only [envGet, blockSet_other hb hy]
    | none =>
      rw [hb] at h
      simp only at h
      cases hs : envSet A x v with
      | none => rw [hs] at h; cases h
      | some a' =>
        rw [hs] at h
        cases h
        simp only [envGet, ih hs]

theorem put_other {A A' : List (List (Nat × V))} {x y : Nat} {v : V} (h : put x v A = some A')
    (hy : y ≠ x) : envGet A' y = envGet A y := by
  rw [put] at h
  split at h
  · cases h; rfl
  · exact envSet_other h hy

theorem sim_get {ex : List (Nat × V)} {d : Nat} {D P : List (List (Nat × V))} (h : Sim ex d D P) {x : Nat}
    (hx : x ∉ ex.map (·.1)) : envGet P x = envGet D x := by
  induction h with
  | here b rest =>
    simp only [envGet, blockGet_app]
    cases blockGet b x with
    | some v => rfl
    | none => simp only [blockGet_nm hx]
  | push b _ ih => simp only [envGet, ih]

theorem sim_set {ex : List (Nat × V)} {d : Nat} {D P : List (List (Nat × V))} (h : Sim ex d D P) {x : Nat}
    {v : V} (hx : x ∉ ex.map (·.1)) : ∀ D', envSet D x v = some D' →
    ∃ P', envSet P x v = some P' ∧ Sim ex d D' P' := by
  induction h with
  | here b rest =>
    intro D' hs
    rw [envSet] at hs
    cases hb : blockSet b x v with
    | some b' =>
      rw [hb] at hs
      cases hs
      refine ⟨(b' ++ ex) :: rest, ?_, .here b' rest⟩
      rw [envSet, blockSet_app, hb]
    | none =>
      rw [hb] at hs
      simp only at hs
      cases hr : envSet rest x v with
      | none => rw [hr] at hs; cases hs
      | some r' =>
        rw [hr] at hs
        cases hs
        refine ⟨(b ++ ex) :: r', ?_, .here b r'⟩
        rw [envSet, blockSet_app, hb]
        simp only
        rw [blockSet_nm (blockGet_nm hx)]
        simp only [Option.map_none]
        rw [hr]
        rfl
  | @push d D P b hsim ih =>
    intro D' hs
    rw [envSet] at hs
    cases hb : blockSet b x v with
    | some b' =>
      rw [hb] at hs
      cases hs
      refine ⟨b' :: P, ?_, .push b' hsim⟩
      rw [envSet, hb]
    | none =>
      rw [hb] at hs
      simp only at hs
      cases hr : envSet D x v with
      | none => rw [hr] at hs; cases hs
      | some r' =>
        rw [hr] at hs
        cases hs
        obtain ⟨P', h1, h2⟩ := ih r' hr
        refine ⟨b :: P', ?_, .push b h2⟩
        rw [envSet, hb]
        simp only
        rw [h1]
        rfl

theorem sim_put {ex : List (Nat × V)} {d : Nat} {D P D' : List (List (Nat × V))} (h : Sim ex d D P) {x : Nat}
    {v : V} (hx : x ∉ ex.map (·.1)) (hs : put x v D = some D') :
    ∃ P', put x v P = some P' ∧ Sim ex d D' P' := by
  rw [put] at hs
  split at hs
  · rename_i h0
    cases hs
    exact ⟨P, by rw [put, if_pos h0], h⟩
  · rename_i h0
    obtain ⟨P', h1, h2⟩ := sim_set h hx D' hs
    exact ⟨P', by rw [put, if_neg h0]; exact h1, h2⟩

theorem sim_add {ex : List (Nat × V)} {d : Nat} {D P D' : List (List (Nat × V))} (h : Sim ex d D P) {x : Nat}
    {v : V} (hs : envAdd D x v = some D') : ∃ P', envAdd P x v = some P' ∧ Sim ex d D' P' := by
  cases h with
  | here b rest =>
    rw [envAdd] at hs
    cases hs
    exact ⟨_, rfl, Sim.here ((x, v) :: b) rest⟩
  | push b h =>
    rw [envAdd] at hs
    cases hs
    exact ⟨_, rfl, .push _ h⟩

/-- The entries of the counters. -/
def cnt (O : Ops V) (C : List Nat) (K : Nat → Nat) : List (Nat × V) := C.map fun l => (l, O.num (K l))

theorem cnt_names (C : List Nat) (K : Nat → Nat) : (cnt O C K).map (·.1) = C := by
  induction C with
  | nil => rfl
  | cons c C ih => simp only [cnt, List.map_cons] at ih ⊢; rw [ih]

/-- A counter gets a value. -/
def upd (K : Nat → Nat) (l n : Nat) : Nat → Nat := fun x => if x = l then n else K x

theorem cnt_get {C : List Nat} {K : Nat → Nat} {l : Nat} (h : l ∈ C) :
    blockGet (cnt O C K) l = some (O.num (K l)) := by
  induction C with
  | nil => cases h
  | cons c C ih =>
    simp only [cnt, List.map_cons, blockGet]
    split
    · rename_i e; rw [e]
    · rename_i e
      rcases List.mem_cons.mp h with h | h
      · exact absurd h.symm e
      · exact ih h

theorem cnt_same {C : List Nat} {K : Nat → Nat} {l n : Nat} (h : l ∉ C) : cnt O C (upd K l n) = cnt O C K := by
  rw [cnt, cnt]
  refine List.map_congr_left (fun x hx => ?_)
  have : x ≠ l := fun e => h (e ▸ hx)
  simp only [upd, if_neg this]

theorem cnt_set {C : List Nat} {K : Nat → Nat} {l n : Nat} (h : l ∈ C) (hn : C.Nodup) :
    blockSet (cnt O C K) l (O.num n) = some (cnt O C (upd K l n)) := by
  induction C with
  | nil => cases h
  | cons c C ih =>
    simp only [List.nodup_cons] at hn
    simp only [cnt, List.map_cons, blockSet]
    by_cases e : c = l
    · subst e
      rw [if_pos rfl]
      have := cnt_same (O := O) (K := K) (n := n) hn.1
      simp only [cnt] at this
      rw [this]
      simp [upd]
    · rw [if_neg e]
      rcases List.mem_cons.mp h with h | h
      · exact absurd h.symm e
      · have := ih h hn.2
        simp only [cnt] at this
        rw [this]
        simp [upd, e]

theorem sim_cnt_get {C : List Nat} {K : Nat → Nat} {d : Nat} {D P : List (List (Nat × V))}
    (h : Sim (cnt O C K) d D P) {l : Nat} (hl : l ∈ C) (hd : envGet D l = none) :
    envGet P l = some (O.num (K l)) := by
  induction h with
  | here b rest =>
    simp only [envGet] at hd ⊢
    cases hb : blockGet b l with
    | some v => rw [hb] at hd; cases hd
    | none => rw [blockGet_app, hb]; simp only [cnt_get hl]
  | push b _ ih =>
    simp only [envGet] at hd ⊢
    cases hb : blockGet b l with
    | some v => rw [hb] at hd; cases hd
    | none => rw [hb] at hd; exact ih hd

theorem sim_cnt_set {C : List Nat} {K : Nat → Nat} {d : Nat} {D P : List (List (Nat × V))}
    (h : Sim (cnt O C K) d D P) {l n : Nat} (hl : l ∈ C) (hn : C.Nodup) (hd : envGet D l = none) :
    ∃ P', envSet P l (O.num n) = some P' ∧ Sim (cnt O C (upd K l n)) d D P' := by
  induction h with
  | here b rest =>
    simp only [envGet] at hd
    cases hb : blockGet b l with
    | some v => rw [hb] at hd; cases hd
    | none =>
      refine ⟨_, ?_, .here b rest⟩
      rw [envSet, blockSet_app, blockSet_nm hb]
      simp only [cnt_set hl hn, Option.map_some]
  | push b _ ih =>
    simp only [envGet] at hd
    cases hb : blockGet b l with
    | some v => rw [hb] at hd; cases hd
    | none =>
      rw [hb] at hd
      obtain ⟨P', h1, h2⟩ := ih hd
      refine ⟨b :: P', ?_, .push b h2⟩
      rw [envSet, blockSet_nm hb]
      simp only
      rw [h1]
      rfl

/-! ### What expressions read -/

/-- The variables an expression reads. -/
def varsP : SExpr → List Nat
  | .nil | .num _ => []
  | .var x => [x]
  | .out _ l _ => l.toList
  | .succ l => [l]
  | .cons e r => varsP e ++ varsP r
  | .op _ _ as => varsP as
  | .array es | .tuple es => varsP es
  | .anon _ _ ps _ ss _ => varsP ps ++ varsP ss
  | .par e => varsP e

theorem evalP_congr {A B : List (List (Nat × V))} {st : Store V} : (e : SExpr) →
    (∀ x ∈ varsP e, envGet A x = envGet B x) → evalP O T A st e = evalP O T B st e
  | .nil, _ => rfl
  | .num _, _ => rfl
  | .var x, h => by rw [evalP, evalP, h x (by simp [varsP])]
  | .out c l o, h => by
    have : index O A l = index O B l := by
      cases l with
      | none => rfl
      | some l => simp only [index]; rw [h l (by simp [varsP])]
    rw [evalP, evalP, this]
  | .succ l, h => by
    have : index O A (some l) = index O B (some l) := by
      simp only [index]; rw [h l (by simp [varsP])]
    rw [evalP, evalP, this]
  | .cons e r, h => by
    rw [evalP, evalP, evalP_congr e (fun x hx => h x (by simp [varsP, hx])),
      evalP_congr r (fun x hx => h x (by simp [varsP, hx]))]
  | .op _ _ as, h => by rw [evalP, evalP, evalP_congr as h]
  | .array es, h => by rw [evalP, evalP, evalP_congr es h]
  | .tuple es, h => by rw [evalP, evalP, evalP_congr es h]
  | .anon _ _ _ _ _ _, _ => rfl
  | .par e, h => by rw [evalP, evalP, evalP_congr e h]

/-- The variables the parts of an expression outside of anonymous components read. -/
def reads : SExpr → List Nat
  | .nil | .num _ | .out _ _ _ | .succ _ | .anon _ _ _ _ _ _ => []
  | .var x => [x]
  | .cons e r => reads e ++ reads r
  | .op _ _ as => reads as
  | .array es | .tuple es => reads es
  | .par e => reads e

/-- `reads` for each element of a tuple; the elements an anonymous component gives read nothing. -/
def slots (T : Nat → Option Templ) : SExpr → List (List Nat)
  | .nil => []
  | .cons e r => slots T e ++ slots T r
  | .tuple es => slots T es
  | .anon _ t _ _ _ _ | .par (.anon _ t _ _ _ _) =>
    match T t with
    | none => []
    | some tm => tm.outputs.map fun _ => []
  | e => [reads e]

/-- No element of the right side reads a variable that an earlier element of the left side is. -/
def indep : List Nat → List (List Nat) → Bool
  | x :: xs, _ :: rs => rs.all (fun r => decide (x = underscore ∨ x ∉ r)) && indep xs rs
  | _, _ => true

theorem flat_args (l : List SExpr) : flat (args l) = l.flatMap flat := by
  induction l with
  | nil => rfl
  | cons a l ih => simp [args, flat, ih]

theorem varsP_reads : (e : SExpr) → hasAnon e = false → srcE L e = true → varsP e = reads e
  | .nil, _, _ | .num _, _, _ | .var _, _, _ => rfl
  | .out _ _ _, _, h | .succ _, _, h => by simp [srcE] at h
  | .cons e r, ha, hs => by
    simp only [hasAnon, Bool.or_eq_false_iff] at ha
    simp only [srcE, Bool.and_eq_true] at hs
    simp only [varsP, reads, varsP_reads e ha.1 hs.1, varsP_reads r ha.2 hs.2]
  | .op _ _ as, ha, hs => by rw [hasAnon] at ha; rw [srcE] at hs; exact varsP_reads as ha hs
  | .array as, ha, hs => by rw [hasAnon] at ha; rw [srcE] at hs; exact varsP_reads as ha hs
  | .tuple as, ha, hs => by rw [hasAnon] at ha; rw [srcE] at hs; exact varsP_reads as ha hs
  | .par as, ha, hs => by rw [hasAnon] at ha; rw [srcE] at hs; exact varsP_reads as ha hs
  | .anon _ _ _ _ _ _, ha, _ => by simp [hasAnon] at ha

/-- Elements of the new expression against the slots of the old one. -/
def Reads (acc : Option Nat) (e : SExpr) (sl : List Nat) : Prop := ∀ x ∈ varsP e, x ∈ sl ∨ acc = some x

theorem reads_plain {acc : Option Nat} {e : SExpr} (ha : hasAnon e = false) (hs : srcE L e = true)
    (hf : flat e = [e]) (hsl : slots T e = [reads e]) :
    List.Forall₂ (Reads acc) ([(⟨[], [], e⟩ : Res)].flatMap fun r => flat r.expr) (slots T e) := by
  rw [hsl]
  simp only [List.flatMap_cons, List.flatMap_nil, hf, List.append_nil]
  refine .cons ?_ .nil
  intro x hx
  rw [varsP_reads e ha hs] at hx
  exact .inl hx

theorem reads_anon {acc : Option Nat} {pos t : Nat} {ps : SExpr} {names : Option (List (AOp × Nat))}
    {rs : List Res} {par : Bool} {r : Res} (hx : expand N T acc pos t ps names rs par = .ok r) :
    List.Forall₂ (Reads acc) (flat r.expr) (match T t with
      | none => []
      | some tm => tm.outputs.map fun _ => []) := by
  rw [expand] at hx
  cases ht : T t with
  | none => rw [ht] at hx; cases hx
  | some tm =>
    rw [ht] at hx
    simp only at hx
    cases hb : bind tm names rs with
    | error e => rw [hb] at hx; cases hx
    | ok ins =>
      rw [hb] at hx
      simp only at hx
      injection hx with hx
      subst hx
      have key : ∀ os : List Nat, List.Forall₂ (Reads acc)
          (os.map fun o => SExpr.out (N.comp t pos) acc o) (os.map fun _ => ([] : List Nat)) := by
        intro os
        induction os with
        | nil => exact .nil
        | cons o os ih =>
          refine .cons ?_ ih
          intro x hx
          cases acc with
          | none => simp [varsP] at hx
          | some l => simp [varsP] at hx; exact .inr (by rw [hx])
      simp only
      split
      · rename_i o ho
        rw [ho]
        exact key [o]
      · rw [flat, flat_args, List.flatMap_map]
        have : (tm.outputs.flatMap fun o => flat (SExpr.out (N.comp t pos) acc o)) =
            tm.outputs.map fun o => SExpr.out (N.comp t pos) acc o := by
          induction tm.outputs with
          | nil => rfl
          | cons o os ih => simp only [List.flatMap_cons, List.map_cons, ih]; rfl
        rw [this]
        exact key tm.outputs

theorem varsP_args (l : List SExpr) : varsP (args l) = l.flatMap varsP := by
  induction l with
  | nil => rfl
  | cons a l ih => simp [args, varsP, ih]

theorem vars_anon {acc : Option Nat} {pos t : Nat} {ps : SExpr} {names : Option (List (AOp × Nat))}
    {rs : List Res} {par : Bool} {r : Res} (hx : expand N T acc pos t ps names rs par = .ok r) :
    ∀ x ∈ varsP r.expr, acc = some x := by
  rw [expand] at hx
  cases ht : T t with
  | none => rw [ht] at hx; cases hx
  | some tm =>
    rw [ht] at hx
    simp only at hx
    cases hb : bind tm names rs with
    | error e => rw [hb] at hx; cases hx
    | ok ins =>
      rw [hb] at hx
      simp only at hx
      injection hx with hx
      subst hx
      intro x hx
      simp only at hx
      split at hx
      · simpa [varsP] using hx
      · simp only [varsP, varsP_args, List.flatMap_map, List.mem_flatMap] at hx
        obtain ⟨o, _, ho⟩ := hx
        simpa [varsP] using ho

theorem removeE_vars {acc : Option Nat} : (e : SExpr) → (c : Bool) → (rs : List Res) →
    removeE N T acc e = .ok rs → proper e = true → wf c e = true → srcE L e = true →
    ∀ r ∈ rs, ∀ x ∈ varsP r.expr, x ∈ reads e ∨ acc = some x
  | .nil, c, rs, h, _, _, _ => by
    rw [removeE] at h; injection h with h; subst h
    intro r hr; cases hr
  | .cons e r, c, rs, h, hp, hw, hs => by
    rw [removeE] at h
    simp only [proper, Bool.and_eq_true] at hp
    simp only [srcE, Bool.and_eq_true] at hs
    cases c with
    | false => simp [wf] at hw
    | true =>
      simp only [wf, Bool.and_eq_true] at hw
      cases he : removeE N T acc e with
      | error x => rw [he] at h; cases h
      | ok re =>
        rw [he] at h
        simp only at h
        cases hr : removeE N T acc r with
        | error x => rw [hr] at h; cases h
        | ok rr =>
          rw [hr] at h
          injection h with h
          subst h
          intro y hy x hx
          rw [reads, List.mem_append]
          rcases List.mem_append.mp hy with hy | hy
          · rcases removeE_vars e _ re he hp.1 hw.1 hs.1 y hy x hx with h | h
            · exact .inl (.inl h)
            · exact .inr h
          · rcases removeE_vars r _ rr hr hp.2 hw.2 hs.2 y hy x hx with h | h
            · exact .inl (.inr h)
            · exact .inr h
  | .tuple es, c, rs, h, hp, hw, hs | .array es, c, rs, h, hp, hw, hs => by
    rw [removeE] at h
    rw [proper] at hp
    rw [srcE] at hs
    cases c with
    | true => simp [wf] at hw
    | false =>
      simp only [wf] at hw
      cases he : removeE N T acc es with
      | error x => rw [he] at h; cases h
      | ok re =>
        rw [he] at h
        injection h with h
        subst h
        have ih := removeE_vars es _ re he hp hw hs
        intro y hy x hx
        simp only [List.mem_singleton] at hy
        subst hy
        simp only [varsP, varsP_args, List.flatMap_map, List.mem_flatMap] at hx
        obtain ⟨r, hr, hx⟩ := hx
        exact ih r hr x hx
  | .anon pos t ps names ss par, c, rs, h, hp, hw, hs => by
    rw [removeE] at h
    cases he : removeE N T acc ss with
    | error x => rw [he] at h; cases h
    | ok re =>
      rw [he] at h
      simp only at h
      cases hx : expand N T acc pos t ps names re par with
      | error x => rw [hx] at h; cases h
      | ok r =>
        rw [hx] at h
        injection h with h
        subst h
        intro y hy x hm
        simp only [List.mem_singleton] at hy
        subst hy
        exact .inr (vars_anon hx x hm)
  | .par (.anon pos t ps names ss par), c, rs, h, hp, hw, hs => by
    rw [removeE] at h
    cases he : removeE N T acc ss with
    | error x => rw [he] at h; cases h
    | ok re =>
      rw [he] at h
      simp only at h
      cases hx : expand N T acc pos t ps names re true with
      | error x => rw [hx] at h; cases h
      | ok r =>
        rw [hx] at h
        injection h with h
        subst h
        intro y hy x hm
        simp only [List.mem_singleton] at hy
        subst hy
        exact .inr (vars_anon hx x hm)
  | .num v, c, rs, h, hp, hw, hs => by
    simp only [removeE] at h; injection h with h; subst h
    intro y hy x hx
    simp only [List.mem_singleton] at hy
    subst hy
    simp [varsP] at hx
  | .var v, c, rs, h, hp, hw, hs => by
    simp only [removeE] at h; injection h with h; subst h
    intro y hy x hx
    simp only [List.mem_singleton] at hy
    subst hy
    exact .inl hx
  | .out _ _ _, c, rs, h, hp, hw, hs => by simp [srcE] at hs
  | .succ _, c, rs, h, hp, hw, hs => by simp [srcE] at hs
  | .op _ _ as, c, rs, h, hp, hw, hs => by
    simp only [removeE] at h; injection h with h; subst h
    simp only [proper, Bool.not_eq_true'] at hp
    intro y hy x hx
    simp only [List.mem_singleton] at hy
    subst hy
    exact .inl ((congrArg (x ∈ ·) (varsP_reads (L := L) _ hp hs)).mp hx)
  | .par .nil, c, rs, h, hp, hw, hs | .par (.cons _ _), c, rs, h, hp, hw, hs
  | .par (.num _), c, rs, h, hp, hw, hs | .par (.var _), c, rs, h, hp, hw, hs
  | .par (.out _ _ _), c, rs, h, hp, hw, hs | .par (.succ _), c, rs, h, hp, hw, hs
  | .par (.op _ _ _), c, rs, h, hp, hw, hs | .par (.array _), c, rs, h, hp, hw, hs
  | .par (.tuple _), c, rs, h, hp, hw, hs | .par (.par _), c, rs, h, hp, hw, hs => by
    simp only [removeE] at h; injection h with h; subst h
    simp only [proper, Bool.not_eq_true'] at hp
    intro y hy x hx
    simp only [List.mem_singleton] at hy
    subst hy
    exact .inl ((congrArg (x ∈ ·) (varsP_reads (L := L) _ hp hs)).mp hx)

theorem removeE_reads {acc : Option Nat} : (e : SExpr) → (c : Bool) → (rs : List Res) →
    removeE N T acc e = .ok rs → proper e = true → wf c e = true → srcE L e = true →
    List.Forall₂ (Reads acc) (rs.flatMap fun r => flat r.expr) (slots T e)
  | .nil, c, rs, h, _, _, _ => by
    rw [removeE] at h; injection h with h; subst h
    exact .nil
  | .cons e r, c, rs, h, hp, hw, hs => by
    rw [removeE] at h
    simp only [proper, Bool.and_eq_true] at hp
    simp only [srcE, Bool.and_eq_true] at hs
    cases c with
    | false => simp [wf] at hw
    | true =>
      simp only [wf, Bool.and_eq_true] at hw
      cases he : removeE N T acc e with
      | error x => rw [he] at h; cases h
      | ok re =>
        rw [he] at h
        simp only at h
        cases hr : removeE N T acc r with
        | error x => rw [hr] at h; cases h
        | ok rr =>
          rw [hr] at h
          injection h with h
          subst h
          rw [List.flatMap_append, slots]
          exact List.rel_append (removeE_reads e _ re he hp.1 hw.1 hs.1)
            (removeE_reads r _ rr hr hp.2 hw.2 hs.2)
  | .tuple es, c, rs, h, hp, hw, hs => by
    rw [removeE] at h
    rw [proper] at hp
    rw [srcE] at hs
    cases c with
    | true => simp [wf] at hw
    | false =>
      simp only [wf] at hw
      cases he : removeE N T acc es with
      | error x => rw [he] at h; cases h
      | ok re =>
        rw [he] at h
        injection h with h
        subst h
        have ih := removeE_reads es _ re he hp hw hs
        simp only [List.flatMap_cons, List.flatMap_nil, List.append_nil, flat, slots, flat_args,
          List.flatMap_map]
        exact ih
  | .array es, c, rs, h, hp, hw, hs => by
    have h0 := h
    rw [removeE] at h
    cases he : removeE N T acc es with
    | error x => rw [he] at h; cases h
    | ok re =>
      rw [he] at h
      injection h with h
      subst h
      have := removeE_vars (.array es) c _ h0 hp hw hs
      simp only [List.flatMap_cons, List.flatMap_nil, List.append_nil, flat, slots]
      exact .cons (fun x hx => this _ List.mem_cons_self x hx) .nil
  | .anon pos t ps names ss par, c, rs, h, hp, hw, hs => by
    rw [removeE] at h
    cases he : removeE N T acc ss with
    | error x => rw [he] at h; cases h
    | ok re =>
      rw [he] at h
      simp only at h
      cases hx : expand N T acc pos t ps names re par with
      | error x => rw [hx] at h; cases h
      | ok r =>
        rw [hx] at h
        injection h with h
        subst h
        simp only [List.flatMap_cons, List.flatMap_nil, List.append_nil, slots]
        exact reads_anon hx
  | .par (.anon pos t ps names ss par), c, rs, h, hp, hw, hs => by
    rw [removeE] at h
    cases he : removeE N T acc ss with
    | error x => rw [he] at h; cases h
    | ok re =>
      rw [he] at h
      simp only at h
      cases hx : expand N T acc pos t ps names re true with
      | error x => rw [hx] at h; cases h
      | ok r =>
        rw [hx] at h
        injection h with h
        subst h
        simp only [List.flatMap_cons, List.flatMap_nil, List.append_nil, slots]
        exact reads_anon hx
  | .num v, c, rs, h, hp, hw, hs => by
    simp only [removeE] at h; injection h with h; subst h
    exact reads_plain rfl hs rfl rfl
  | .var v, c, rs, h, hp, hw, hs => by
    simp only [removeE] at h; injection h with h; subst h
    exact reads_plain rfl hs rfl rfl
  | .out _ _ _, c, rs, h, hp, hw, hs => by simp [srcE] at hs
  | .succ _, c, rs, h, hp, hw, hs => by simp [srcE] at hs
  | .op _ _ as, c, rs, h, hp, hw, hs => by
    simp only [removeE] at h; injection h with h; subst h
    simp only [proper, Bool.not_eq_true'] at hp
    exact reads_plain hp hs rfl rfl
  | .par .nil, c, rs, h, hp, hw, hs | .par (.cons _ _), c, rs, h, hp, hw, hs
  | .par (.num _), c, rs, h, hp, hw, hs | .par (.var _), c, rs, h, hp, hw, hs
  | .par (.out _ _ _), c, rs, h, hp, hw, hs | .par (.succ _), c, rs, h, hp, hw, hs
  | .par (.op _ _ _), c, rs, h, hp, hw, hs | .par (.array _), c, rs, h, hp, hw, hs
  | .par (.tuple _), c, rs, h, hp, hw, hs | .par (.par _), c, rs, h, hp, hw, hs => by
    simp only [removeE] at h; injection h with h; subst h
    simp only [proper, Bool.not_eq_true'] at hp
    exact reads_plain hp hs rfl rfl

end Verif.Anon
