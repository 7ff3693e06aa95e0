import Verif.StorageLemmas

/-! # Properties C32 and C33: constraint storage and constant interning -/

set_option linter.unusedSectionVars false

namespace Verif.Props.Storage
open Verif.ModArith (Res Fail)
open Verif.Algebra Verif.Linear Verif.Bytes Verif.Storage
open Verif.Props.Algebra (ok_bind)

/-! ## C33 -/

variable {α : Type} [DecidableEq α]

/-- C33: inserting any sequence of constants into an empty tracker hands out equal ids exactly for equal constants, every id reads back
its constant, and ids stay valid however many constants follow. -/
theorem C33_interning (cs more : List α) :
    let ids := (Tracker.insertAll cs Tracker.new).1
    let t := (Tracker.insertAll cs Tracker.new).2
    let t' := (Tracker.insertAll more t).2
    ids.length = cs.length ∧
    (∀ i j (hi : i < ids.length) (hj : j < ids.length) (hi' : i < cs.length) (hj' : j < cs.length), ids[i] = ids[j] ↔ cs[i] = cs[j]) ∧
    (∀ i (hi : i < ids.length) (hi' : i < cs.length), t'.getConstant ids[i] = some cs[i] ∧ t'.getId cs[i] = some ids[i]) ∧
    (∀ id, id < t.nextId ↔ id ∈ ids) := by
  intro ids t t'
  obtain ⟨h1, h2, h3, h4⟩ := insertAll_spec cs Tracker.new Tracker.new_ok
  obtain ⟨g1, g2, g3, g4⟩ := insertAll_spec more t h1
  have hget : ∀ i (hi : i < ids.length) (hi' : i < cs.length), t.getConstant ids[i] = some cs[i] := by
    intro i hi hi'
    exact List.forall₂_iff_get.1 h4 |>.2 i hi hi'
  refine ⟨h3, fun i j hi hj hi' hj' => ?_, fun i hi hi' => ⟨g2.get (hget i hi hi'), ?_⟩, fun id => ?_⟩
  · have a := hget i hi hi'
    have b := hget j hj hj'
    constructor
    · intro h; rw [h, b] at a; exact (Option.some.inj a).symm
    · intro h
      rw [getConstant_eq] at a b
      have a' := (h1 _ _).2 a
      have b' := (h1 _ _).2 b
      rw [h, b'] at a'
      exact (Option.some.inj a').symm
  · have := g2.get (hget i hi hi')
    rw [getConstant_eq] at this
    exact (g1 _ _).2 this
  · -- ids are dense
    have dense : ∀ (cs : List α) (t : Tracker α) (id : Nat), t.nextId ≤ id → id < (Tracker.insertAll cs t).2.nextId →
        id ∈ (Tracker.insertAll cs t).1 := by
      intro cs
      induction cs with
      | nil => intro t id a b; simp only [Tracker.insertAll] at b; omega
      | cons c cs ih =>
        intro t id a b
        simp only [Tracker.insertAll] at b ⊢
        by_cases hn : (t.insert c).2.nextId ≤ id
        · exact List.mem_cons_of_mem _ (ih _ id hn b)
        · unfold Tracker.insert at hn ⊢
          cases hg : t.getId c with
          | some k => rw [hg] at hn; exact absurd a hn
          | none =>
            rw [hg] at hn
            simp only [Tracker.nextId, List.length_append, List.length_singleton] at hn a
            have : id = t.constants.length := by omega
            simp [this]
    constructor
    · exact fun h => dense cs Tracker.new id (by simp [Tracker.new, Tracker.nextId]) h
    · intro h
      obtain ⟨i, hi, rfl⟩ := List.mem_iff_getElem.1 h
      have := hget i hi (by rw [← h3]; exact hi)
      rw [getConstant_eq] at this
      exact (List.getElem?_eq_some_iff.1 this).1

/-- Three inserts, one repeated. -/
example : (Tracker.insertAll [[7], [0], [7]] (Tracker.new : Tracker (List Nat))).1 = [0, 1, 0] := by decide

/-- The byte strings used as constants determine the coefficient. -/
theorem C33_encoding (x y : Int) : (toSignedBytesLE x = toSignedBytesLE y ↔ x = y) ∧ fromSignedBytesLE (toSignedBytesLE x) = x ∧
    ∀ b ∈ toSignedBytesLE x, b < 256 := by
  refine ⟨⟨fun h => ?_, fun h => by rw [h]⟩, from_toSignedBytesLE x, ?_⟩
  · rw [← from_toSignedBytesLE x, h, from_toSignedBytesLE]
  · unfold toSignedBytesLE
    simp only
    split
    · exact isBytes_twos _ _
    · exact isBytes_extend (isBytes_toBytesLE _) _

example : toSignedBytesLE (-128) = [128] ∧ toSignedBytesLE 128 = [128, 0] ∧ toSignedBytesLE (-129) = [127, 255] ∧
    fromSignedBytesLE [127, 255] = -129 := by decide +kernel

/-! ## C32 -/

/-- Spec: the three hash maps of a constraint have distinct keys (any `HashMap` has). -/
def Proper (c : C) : Prop := (c.a.map Prod.fst).Nodup ∧ (c.b.map Prod.fst).Nodup ∧ (c.c.map Prod.fst).Nodup

instance (c : C) : Decidable (Proper c) := by unfold Proper; infer_instance

/-- Spec: the same calls on a plain list. -/
def spec : List Op → List C → List Out × List C
  | [], l => ([], l)
  | .add c :: ops, l => ((.id l.length :: (spec ops (l ++ [c])).1), (spec ops (l ++ [c])).2)
  | .replace id c :: ops, l => ((.unit :: (spec ops (l.set id c)).1), (spec ops (l.set id c)).2)
  | .extract f :: ops, l => ((.removed (l.filter f) :: (spec ops (l.filter fun c => !f c)).1), (spec ops (l.filter fun c => !f c)).2)

/-- Spec: the constraints passed in a call. -/
def passed : Op → List C
  | .add c => [c]
  | .replace _ c => [c]
  | .extract _ => []

/-- C32: any sequence of calls on an empty storage returns what a plain list of constraints returns, never aborts, and afterwards every
id reads the list entry (and nothing outside the list). -/
theorem C32_storage (ops : List Op) (h : ∀ op ∈ ops, ∀ c ∈ passed op, Proper c) :
    ∃ s, Store.new.run ops = .ok ((spec ops []).1, s) ∧ (∀ id, s.read id = .ok (spec ops []).2[id]?) ∧
      s.getIds = List.range (spec ops []).2.length := by
  have key : ∀ (ops : List Op) (s : Store) (l : List C), (∀ op ∈ ops, ∀ c ∈ passed op, Proper c) → Reps s l →
      ∃ s', Store.run ops s = .ok ((spec ops l).1, s') ∧ Reps s' (spec ops l).2 := by
    intro ops
    induction ops with
    | nil => intro s l _ hr; exact ⟨s, rfl, hr⟩
    | cons op ops ih =>
      intro s l hp hr
      have hp' : ∀ op ∈ ops, ∀ c ∈ passed op, Proper c := fun o ho => hp o (by simp [ho])
      cases op with
      | add c =>
        obtain ⟨h1, h2⟩ := hr.add c (hp (.add c) (by simp) c (by simp [passed]))
        obtain ⟨s', i1, i2⟩ := ih _ _ hp' h2
        exact ⟨s', by unfold Store.run; simp only [i1, ok_bind, h1]; rfl, i2⟩
      | replace id c =>
        obtain ⟨s', i1, i2⟩ := ih _ _ hp' (hr.replace id c (hp (.replace id c) (by simp) c (by simp [passed])))
        exact ⟨s', by unfold Store.run; simp only [i1, ok_bind]; rfl, i2⟩
      | extract f =>
        obtain ⟨s1, h1, h2⟩ := hr.extract f
        obtain ⟨s', i1, i2⟩ := ih _ _ hp' h2
        exact ⟨s', by unfold Store.run; simp only [h1, i1, ok_bind]; rfl, i2⟩
  obtain ⟨s, h1, h2⟩ := key ops Store.new [] h reps_new
  refine ⟨s, h1, fun id => h2.read id, ?_⟩
  unfold Store.getIds; rw [h2.2.length_eq]

/-- Two constraints added, one replaced, empty ones extracted. -/
example :
    let ops : List Op := [.add ⟨[(1, 3)], [(2, -4)], [(3, 300)]⟩, .add ⟨[], [], [(5, 1)]⟩, .replace 1 ⟨[], [], []⟩,
      .extract Constraint.isEmpty, .add ⟨[(0, 3)], [], [(9, 3)]⟩]
    (∀ op ∈ ops, ∀ c ∈ passed op, Proper c) ∧ (spec ops []).2 = [⟨[(1, 3)], [(2, -4)], [(3, 300)]⟩, ⟨[(0, 3)], [], [(9, 3)]⟩] ∧
    (match Store.new.run ops with
      | .ok (_, s) => decide (s.noConstants = 4)
      | _ => false) = true := by
  intro ops
  refine ⟨?_, by decide, by decide +kernel⟩
  intro op hop
  simp only [ops, List.mem_cons, List.not_mem_nil, or_false] at hop
  rcases hop with rfl | rfl | rfl | rfl | rfl <;> simp only [passed, List.mem_singleton, forall_eq] <;> first | decide | simp

end Verif.Props.Storage
