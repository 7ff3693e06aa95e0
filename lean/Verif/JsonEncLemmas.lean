import Verif.JsonNumLemmas
import Verif.InputsLoad

/-! Files that follow the declarations of the inputs. -/

namespace Verif.JsonIn

open Verif.Inputs

set_option linter.unusedSimpArgs false
set_option linter.unusedVariables false

section
variable (buses : List (List Field)) (val : Nat → Sc)

mutual
/-- `Elem b s n j`: the value `j` gives the `n` signals from `s` on, which are one signal (`b` is `none`) or a bus; `val` is the text for
each signal.  The entries of an object may be in any order. -/
inductive Elem : Option Nat → Nat → Nat → J → Prop
  | signal (s : Nat) : Elem none s 1 (.sc (val s))
  | bus {b : Nat} {fields : List Field} {s n : Nat} {es : List (String × J)} {o : JO} (h : buses[b]? = some fields)
      (hf : Fields fields s n es) (hp : o.toList.Perm es) : Elem (some b) s n (.obj o)

/-- An array of such, row by row. -/
inductive Arr : Option Nat → List Nat → Nat → Nat → J → Prop
  | elem {bus : Option Nat} {s n : Nat} {j : J} (h : Elem bus s n j) : Arr bus [] s n j
  | arr {bus : Option Nat} {ds : List Nat} {d s n : Nat} {l : JL} (h : Elems bus ds d s n l) : Arr bus (d :: ds) s n (.arr l)

/-- `d` rows after each other. -/
inductive Elems : Option Nat → List Nat → Nat → Nat → Nat → JL → Prop
  | nil {bus : Option Nat} {ds : List Nat} {s : Nat} : Elems bus ds 0 s 0 .nil
  | cons {bus : Option Nat} {ds : List Nat} {d s m n : Nat} {j : J} {l : JL} (h : Arr bus ds s m j) (hl : Elems bus ds d (s + m) n l) :
      Elems bus ds (d + 1) s (m + n) (.cons j l)

/-- Fields after each other. -/
inductive Fields : List Field → Nat → Nat → List (String × J) → Prop
  | nil {s : Nat} : Fields [] s 0 []
  | cons {f : Field} {fs : List Field} {s m n : Nat} {j : J} {es : List (String × J)} (h : Arr f.bus f.dims s m j)
      (hs : Fields fs (s + m) n es) : Fields (f :: fs) s (m + n) ((f.name, j) :: es)
end
end

/-- The texts for `n` signals. -/
def texts (val : Nat → Sc) (s n : Nat) : List J := (List.range' s n).map fun k => J.sc (val k)

theorem texts_append (val : Nat → Sc) (s m n : Nat) : texts val s (m + n) = texts val s m ++ texts val (s + m) n := by
  unfold texts
  rw [← List.map_append, List.range'_append_1]

/-- A leaf of a file: its path and values. -/
def fileLeaf (e : List Seg × J) : List Seg × List J := (e.1, flat e.2)

/-- A name of the compiler: its path and the texts of its signals. -/
def nameLeaf (val : Nat → Sc) (l : Leaf) : List Seg × List J := (l.path, texts val l.start l.size)

variable {buses : List (List Field)} {val : Nat → Sc}

/-! ### Arrays of signals -/

theorem arr_signals : ∀ (dims : List Nat) {s n : Nat} {j : J}, Arr buses val none dims s n j →
    n = prod dims ∧ flat j = texts val s n ∧ hasObj j = false
  | [], s, n, j, h => by
    cases h with
    | elem h =>
      cases h
      exact ⟨rfl, rfl, rfl⟩
  | d :: ds, s, n, j, h => by
    cases h with
    | arr h =>
      rw [prod_cons]
      simp only [flat, hasObj]
      have key : ∀ (d s n : Nat) (l : JL), Elems buses val none ds d s n l →
          n = d * prod ds ∧ flatL l = texts val s n ∧ hasObjL l = false := by
        intro d
        induction d with
        | zero => intro s n l h; cases h; exact ⟨by simp, rfl, rfl⟩
        | succ d ih =>
          intro s n l h
          cases h with
          | cons h hl =>
            obtain ⟨h1, h2, h3⟩ := arr_signals ds h
            obtain ⟨i1, i2, i3⟩ := ih _ _ _ hl
            refine ⟨by rw [i1, h1]; ring, ?_, by simp [hasObjL, h3, i3]⟩
            rw [flatL, h2, i2, texts_append]
      exact key _ _ _ _ h

theorem leaves_signals {dims : List Nat} {s n : Nat} {j : J} (h : Arr buses val none dims s n j) (p : List Seg) :
    (leaves p j).map fileLeaf = [(p, texts val s n)] := by
  obtain ⟨_, h2, h3⟩ := arr_signals dims h
  have : leaves p j = [(p, j)] := by
    cases j with
    | sc s => rfl
    | obj o => simp [hasObj] at h3
    | arr l => simp only [hasObj] at h3; simp [leaves, h3]
  rw [this]
  simp [fileLeaf, h2]

/-! ### Arrays of buses -/

theorem overAccesses_append (rec : Nat → List Seg → Except InErr (List Leaf)) (s m : Nat) (p : List Seg) :
    ∀ (as bs : List (List Nat × Nat)) {x y : List Leaf}, overAccesses rec s m p as = .ok x → overAccesses rec s m p bs = .ok y →
      overAccesses rec s m p (as ++ bs) = .ok (x ++ y)
  | [], bs, x, y, h1, h2 => by
    simp only [overAccesses, Except.ok.injEq] at h1
    subst h1
    exact h2
  | (a, k) :: as, bs, x, y, h1, h2 => by
    simp only [overAccesses, List.cons_append] at h1 ⊢
    split at h1
    · cases h1
    · rename_i u hu
      split at h1
      · cases h1
      · rename_i v hv
        simp only [Except.ok.injEq] at h1
        subst h1
        rw [overAccesses_append rec s m p as bs hv h2]
        simp

theorem overAccesses_shift (rec : Nat → List Seg → Except InErr (List Leaf)) (s m i jump : Nat) (p : List Seg) :
    ∀ (as : List (List Nat × Nat)), overAccesses rec s m p (as.map fun r => (i :: r.1, jump + r.2)) =
      overAccesses rec (s + jump * m) m (p ++ [.idx i]) as
  | [] => rfl
  | (a, k) :: as => by
    simp only [List.map_cons, overAccesses, overAccesses_shift rec s m i jump p as]
    rw [show s + (jump + k) * m = s + jump * m + k * m by ring]
    simp

/-- What the compiler does for a bus, on all places. -/
def Agrees (buses : List (List Field)) (val : Nat → Sc) (b m : Nat) (rec : Nat → List Seg → Except InErr (List Leaf)) : Prop :=
  ∀ s n j, Elem buses val (some b) s n j → n = m ∧ (∃ o, j = .obj o) ∧
    ∀ p, ∃ x, rec s p = .ok x ∧ ((leaves p j).map fileLeaf).Perm (x.map (nameLeaf val))

theorem arr_buses {b m : Nat} {rec : Nat → List Seg → Except InErr (List Leaf)} (hr : Agrees buses val b m rec) :
    ∀ (dims : List Nat) {s n : Nat} {j : J}, Arr buses val (some b) dims s n j →
      n = m * prod dims ∧ (prod dims ≠ 0 → hasObj j = true) ∧
      ∀ p, ∃ y, overAccesses rec s m p (accesses dims) = .ok y ∧ ((leavesE p j).map fileLeaf).Perm (y.map (nameLeaf val))
  | [], s, n, j, h => by
    cases h with
    | elem h =>
      obtain ⟨h1, ⟨o, rfl⟩, h3⟩ := hr s n j h
      refine ⟨by simp [h1, prod], fun _ => rfl, fun p => ?_⟩
      obtain ⟨x, hx, hp⟩ := h3 p
      refine ⟨x, ?_, by simpa only [leaves, leavesE] using hp⟩
      simp [accesses, overAccesses, hx]
  | d :: ds, s, n, j, h => by
    cases h with
    | arr h =>
      rw [prod_cons]
      simp only [hasObj, leavesE]
      have key : ∀ (d s n : Nat) (l : JL), Elems buses val (some b) ds d s n l →
          n = m * (d * prod ds) ∧ (d * prod ds ≠ 0 → hasObjL l = true) ∧
          ∀ p s0 i jump, s = s0 + jump * m →
            ∃ y, overAccesses rec s0 m p (accLoop (accesses ds) (prod ds) d i jump) = .ok y ∧
            ((leavesL p l i).map fileLeaf).Perm (y.map (nameLeaf val)) := by
        intro d
        induction d with
        | zero =>
          intro s n l h
          cases h
          refine ⟨by simp, by simp, fun p s0 i jump hs => ⟨[], rfl, by simp [leavesL]⟩⟩
        | succ d ih =>
          intro s n l h
          cases h with
          | cons h hl =>
            obtain ⟨h1, h2, h3⟩ := arr_buses hr ds h
            obtain ⟨i1, i2, i3⟩ := ih _ _ _ hl
            refine ⟨by rw [i1, h1]; ring, ?_, ?_⟩
            · intro hne
              have : prod ds ≠ 0 := fun e => hne (by rw [e]; simp)
              simp [hasObjL, h2 this]
            · intro p s0 i jump hs
              obtain ⟨x, hx, hpx⟩ := h3 (p ++ [.idx i])
              obtain ⟨y, hy, hpy⟩ := i3 p s0 (i + 1) (jump + prod ds) (by rw [hs, h1]; ring)
              refine ⟨x ++ y, ?_, ?_⟩
              · rw [accLoop]
                refine overAccesses_append _ _ _ _ _ _ ?_ hy
                rw [overAccesses_shift, ← hs, hx]
              · simp only [leavesL, List.map_append]
                exact hpx.append hpy
      obtain ⟨k1, k2, k3⟩ := key _ _ _ _ h
      refine ⟨k1, k2, fun p => ?_⟩
      exact k3 p s 0 0 (by simp)

/-! ### Fields -/

theorem prod_pos_of {dims : List Nat} (h : prod dims ≠ 0) : 0 < prod dims := Nat.pos_of_ne_zero h

theorem leaves_of_leavesE {j : J} (h : hasObj j = true) (p : List Seg) : leaves p j = leavesE p j := by
  cases j with
  | sc s => rfl
  | obj o => rfl
  | arr l => simp only [hasObj] at h; simp [leaves, leavesE, h]

theorem fields_agree {size : Nat → Except InErr Nat} {rec : Nat → Nat → List Seg → Except InErr (List Leaf)}
    (hrec : ∀ b m, size b = .ok m → Agrees buses val b m (rec b)) (start : Nat) :
    ∀ (fields : List Field) (is : List FInfo) (ds : List FData) (off total s n : Nat) (es : List (String × J)),
    layFields size fields off = .ok (is, total) → fieldData is = .ok ds → s = start + off → Fields buses val fields s n es →
    total = off + n ∧ ∀ p, ∃ y, overFields rec start p ds = .ok y ∧
      ((es.flatMap fun e => leaves (p ++ [.field e.1]) e.2).map fileLeaf).Perm (y.map (nameLeaf val))
  | [], is, ds, off, total, s, n, es, h, hd, hs, hf => by
    simp only [layFields, Except.ok.injEq, Prod.mk.injEq] at h
    obtain ⟨rfl, rfl⟩ := h
    simp only [fieldData, Except.ok.injEq] at hd
    subst hd
    cases hf
    exact ⟨rfl, fun p => ⟨[], rfl, by simp⟩⟩
  | f :: fs, is, ds, off, total, s, n, es, h, hd, hs, hf => by
    simp only [layFields] at h
    split at h
    · cases h
    · rename_i u hu
      split at h
      · cases h
      · rename_i is' total' hlay
        simp only [Except.ok.injEq, Prod.mk.injEq] at h
        obtain ⟨rfl, rfl⟩ := h
        simp only [fieldData] at hd
        split at hd
        · cases hd
        · rename_i hp0
          split at hd
          · cases hd
          · rename_i ds' hds'
            simp only [Except.ok.injEq] at hd
            subst hd
            have hdiv : f.dims.foldl (fun p c => p * c) u / prod f.dims = u := by
              rw [foldl_prod, Nat.mul_div_cancel _ (by omega)]
            have hmul := foldl_prod u f.dims
            cases hf with
            | @cons _ _ _ m n j es h1 h2 =>
              have hx : m = u * prod f.dims ∧ ∀ p, ∃ x, fieldLeaves rec start p ⟨f.name, f.dims, u, off, f.bus⟩ = .ok x ∧
                  ((leaves (p ++ [.field f.name]) j).map fileLeaf).Perm (x.map (nameLeaf val)) := by
                cases hb : f.bus with
                | none =>
                  simp only [unitSize, hb, Except.ok.injEq] at hu
                  subst hu
                  rw [hb] at h1
                  have hm := (arr_signals _ h1).1
                  refine ⟨by rw [hm]; simp, fun p => ?_⟩
                  refine ⟨_, rfl, ?_⟩
                  rw [leaves_signals h1]
                  simp only [nameLeaf, List.map_cons, List.map_nil]
                  rw [hmul, ← hs, hm, Nat.one_mul]
                | some b =>
                  simp only [unitSize, hb] at hu
                  rw [hb] at h1
                  obtain ⟨a1, a2, a3⟩ := arr_buses (hrec b u hu) _ h1
                  refine ⟨a1, fun p => ?_⟩
                  obtain ⟨y, hy, hpy⟩ := a3 (p ++ [.field f.name])
                  refine ⟨y, ?_, ?_⟩
                  · simp only [fieldLeaves]
                    rw [← hs]
                    exact hy
                  · rw [leaves_of_leavesE (a2 hp0)]
                    exact hpy
              obtain ⟨hm, hx⟩ := hx
              obtain ⟨i1, i2⟩ := fields_agree hrec start fs is' ds' _ total' (s + m) n es hlay hds'
                (by rw [hs, hm, hmul]; omega) h2
              refine ⟨by rw [i1, hmul, hm]; omega, fun p => ?_⟩
              obtain ⟨x, hx1, hx2⟩ := hx p
              obtain ⟨y, hy1, hy2⟩ := i2 p
              refine ⟨x ++ y, ?_, ?_⟩
              · simp only [overFields, hdiv]
                rw [hx1]
                simp only [hy1]
              · simp only [List.flatMap_cons, List.map_append]
                exact hx2.append hy2

theorem bus_agrees {fm : List (List FData)} {F : Nat} (hfm : fieldMap buses F = .ok fm) :
    ∀ (fuel b : Nat) (is : List FInfo) (m : Nat), fuel ≤ F → buildBus buses fuel b = .ok (is, m) →
    Agrees buses val b m (qualified fm fuel b)
  | 0, _, _, _, _, h => by cases h
  | fuel + 1, b, is, m, hle, h => by
    have h' := h
    rw [buildBus] at h
    split at h
    · cases h
    · rename_i fields hf
      have hblt : b < buses.length := (List.getElem?_eq_some_iff.mp hf).1
      obtain ⟨is', n', ds, hb', hds, hget⟩ := fieldMapFrom_get _ _ hfm b b (by rw [List.getElem?_range hblt])
      have := buildBus_mono_le buses hle h'
      rw [this] at hb'
      simp only [Except.ok.injEq, Prod.mk.injEq] at hb'
      obtain ⟨rfl, rfl⟩ := hb'
      intro s n j hj
      cases hj with
      | @bus _ fields' _ _ es o h1 h2 h3 =>
        rw [hf] at h1
        cases h1
        obtain ⟨k1, k2⟩ := fields_agree (val := val) (rec := qualified fm fuel) (by
          intro b' s' hs
          split at hs
          · cases hs
          · rename_i is2 n2 hb2
            simp only [Except.ok.injEq] at hs
            subst hs
            exact bus_agrees hfm fuel b' is2 n2 (by omega) hb2) s fields is ds 0 m s n es h hds (by simp) h2
        refine ⟨by omega, ⟨o, rfl⟩, fun p => ?_⟩
        obtain ⟨y, hy, hp⟩ := k2 p
        refine ⟨y, by simp only [qualified, hget, hy], ?_⟩
        simp only [leaves, leavesO_flatMap]
        exact ((h3.flatMap_right _).map _).trans hp

end Verif.JsonIn
