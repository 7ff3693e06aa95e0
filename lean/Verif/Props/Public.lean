import Verif.Public
import Mathlib.Data.List.Perm.Basic

/-!
# C102: the public inputs are the listed ones
-/

namespace Verif.Props.Public

open Verif.Dag Verif.Public

/-- The inputs that are declared when a body is executed, in order. -/
def declared (b : Body) : List Wire := b.wires.filterMap fun x => if x.1 = .input then some x.2 else none

/-- The names of the signals of a wire: of one wire alone. -/
def signals (w : Wire) : List Name :=
  match w.fields with
  | none => arrayNames w.name w.dims
  | some f => (arrayNames w.name w.dims).flatMap fun b => f.names (b ++ ['.'])

theorem ofKind_eq : ∀ l : List (Kind × Wire), ofKind .input l = l.filterMap fun x => if x.1 = .input then some x.2 else none
  | [] => rfl
  | (k, w) :: l => by
    have ih := ofKind_eq l
    unfold ofKind at ih ⊢
    cases k
    · simpa using ih
    · simpa using ih
    · simpa using ih

theorem names_toWires : ∀ l : List Wire, (toWires l).names [] = l.flatMap signals
  | [] => rfl
  | ⟨n, ds, none⟩ :: l => by
    rw [toWires, Wires.names, names_toWires l, List.flatMap_cons]
    rfl
  | ⟨n, ds, some f⟩ :: l => by
    rw [toWires, Wires.names, names_toWires l, List.flatMap_cons]
    rfl

theorem ids_toWires : ∀ l : List Wire, (toWires l).ids = l.map (·.name)
  | [] => rfl
  | ⟨n, ds, none⟩ :: l => by rw [toWires, Wires.ids, ids_toWires l]; rfl
  | ⟨n, ds, some f⟩ :: l => by rw [toWires, Wires.ids, ids_toWires l]; rfl

theorem instances_nil : ∀ (bs : List Body), ∀ t ∈ instances [] bs, t.publicInputs = .nil
  | [], t, h => by simp [instances] at h
  | b :: bs, t, h => by
    rw [instances] at h
    rcases List.mem_cons.1 h with rfl | h
    · simp [split, toWires]
    · exact instances_nil bs t h

theorem program_ok {list : List Name} {main : Body} {rest : List Body} {ss : List Split} (h : program list main rest = .ok ss) :
    analyzeMain main list = [] ∧ ss = split list main :: instances [] rest := by
  unfold program at h
  split at h
  · next he =>
    injection h with h
    exact ⟨he, h.symm⟩
  · cases h

/-- **C102 (signals).**  The public inputs of an accepted program are the signals of the listed inputs of the main component, in the order of declaration, the
private ones are those of the others, and together they are all its inputs.  No other instance has public inputs. -/
theorem C102_signals {list : List Name} {main : Body} {rest : List Body} {ss : List Split} (h : program list main rest = .ok ss) :
    ∃ s subs, ss = s :: subs ∧ subs.length = rest.length ∧
      s.publicInputs.names [] = ((declared main).filter fun w => decide (w.name ∈ list)).flatMap signals ∧
      s.privateInputs.names [] = ((declared main).filter fun w => decide (w.name ∉ list)).flatMap signals ∧
      (s.publicInputs.names [] ++ s.privateInputs.names []).Perm ((declared main).flatMap signals) ∧
      ∀ t ∈ subs, t.publicInputs.names [] = [] := by
  obtain ⟨-, rfl⟩ := program_ok h
  have hp : (split list main).publicInputs.names [] = ((declared main).filter fun w => decide (w.name ∈ list)).flatMap signals := by
    unfold split
    dsimp only
    rw [names_toWires, ofKind_eq]
    unfold declared
    congr 2
    funext w
    simp [Bool.eq_iff_iff]
  have hq : (split list main).privateInputs.names [] = ((declared main).filter fun w => decide (w.name ∉ list)).flatMap signals := by
    unfold split
    dsimp only
    rw [names_toWires, ofKind_eq]
    unfold declared
    congr 2
    funext w
    simp [Bool.eq_iff_iff]
  refine ⟨_, _, rfl, ?_, hp, hq, ?_, fun t ht => by rw [instances_nil rest t ht]; rfl⟩
  · have : ∀ (l : List Name) (bs : List Body), (instances l bs).length = bs.length := by
      intro l bs
      induction bs generalizing l with
      | nil => rfl
      | cons b bs ih => rw [instances, List.length_cons, ih, List.length_cons]
    exact this _ _
  · rw [hp, hq, ← List.flatMap_append]
    refine List.Perm.flatMap_right _ ?_
    have := List.filter_append_perm (fun w : Wire => decide (w.name ∈ list)) (declared main)
    have e : (fun w : Wire => decide (w.name ∉ list)) = fun w => !decide (w.name ∈ list) := by
      funext w
      simp [Bool.eq_iff_iff]
    rw [e]
    exact this

/-- **C102 (list).**  The order of the list and repetitions in it do not matter. -/
theorem C102_list {list list' : List Name} (he : ∀ n, n ∈ list ↔ n ∈ list') {main : Body} {rest : List Body} {ss : List Split}
    (h : program list main rest = .ok ss) : program list' main rest = .ok ss := by
  obtain ⟨ha, rfl⟩ := program_ok h
  have hc : ∀ n, list.contains n = list'.contains n := fun n => by
    rw [Bool.eq_iff_iff, List.contains_iff_mem, List.contains_iff_mem]
    exact he n
  have ha' : analyzeMain main list' = [] := by
    unfold analyzeMain at ha ⊢
    rw [List.filter_eq_nil_iff] at ha ⊢
    exact fun n hn => ha n ((he n).2 hn)
  unfold program
  rw [ha']
  dsimp only
  rw [instances]
  congr 2
  unfold split
  simp only [hc]

/-- A body in which some branch declares an input of this name. -/
inductive Mentions (n : Name) : Body → Prop
  | decl {w : Wire} {l : Body} : w.name = n → Mentions n (.cons (.decl .input w) l)
  | yes {c : Bool} {a b l : Body} : Mentions n a → Mentions n (.cons (.ite c a b) l)
  | no {c : Bool} {a b l : Body} : Mentions n b → Mentions n (.cons (.ite c a b) l)
  | later {i : Item} {l : Body} : Mentions n l → Mentions n (.cons i l)

theorem mentions_iff (n : Name) : ∀ b : Body, n ∈ b.inputs ↔ Mentions n b
  | .nil => ⟨fun h => by simp [Body.inputs] at h, fun h => nomatch h⟩
  | .cons i l => by
    rw [Body.inputs, List.mem_append]
    constructor
    · rintro (h | h)
      · match i, h with
        | .decl .input w, h =>
          rw [Item.inputs, List.mem_singleton] at h
          exact .decl h.symm
        | .decl .output w, h => simp [Item.inputs] at h
        | .decl .intermediate w, h => simp [Item.inputs] at h
        | .ite c a b, h =>
          rw [Item.inputs, List.mem_append] at h
          rcases h with h | h
          · exact .yes ((mentions_iff n a).1 h)
          · exact .no ((mentions_iff n b).1 h)
      · exact .later ((mentions_iff n l).1 h)
    · intro h
      match i, h with
      | _, .decl hw => exact .inl (by rw [Item.inputs, hw]; exact List.mem_singleton.2 rfl)
      | .ite c a b, .yes h => exact .inl (by rw [Item.inputs]; exact List.mem_append_left _ ((mentions_iff n a).2 h))
      | .ite c a b, .no h => exact .inl (by rw [Item.inputs]; exact List.mem_append_right _ ((mentions_iff n b).2 h))
      | _, .later h => exact .inr ((mentions_iff n l).2 h)

/-- **C102 (check).**  A program is refused exactly if a listed name is declared as an input in no branch of the main template, and the names reported are those. -/
theorem C102_check (list : List Name) (main : Body) (rest : List Body) :
    ((∃ ss, program list main rest = .ok ss) ↔ ∀ n ∈ list, Mentions n main) ∧
    ∀ r, program list main rest = .error r → r ≠ [] ∧ ∀ n, n ∈ r ↔ n ∈ list ∧ ¬ Mentions n main := by
  have hm : ∀ n, n ∈ analyzeMain main list ↔ n ∈ list ∧ ¬ Mentions n main := fun n => by
    unfold analyzeMain
    rw [List.mem_filter, ← mentions_iff]
    simp
  refine ⟨⟨fun ⟨ss, h⟩ n hn => ?_, fun h => ?_⟩, fun r h => ?_⟩
  · by_contra hc
    have := (hm n).2 ⟨hn, hc⟩
    rw [(program_ok h).1] at this
    cases this
  · have : analyzeMain main list = [] := List.eq_nil_iff_forall_not_mem.2 fun n hn => ((hm n).1 hn).2 (h n ((hm n).1 hn).1)
    unfold program
    rw [this]
    exact ⟨_, rfl⟩
  · unfold program at h
    split at h
    · cases h
    · next hne =>
      injection h with h
      rw [← h]
      exact ⟨fun e => hne e, hm⟩

/-- A body whose inputs are declared outside of `if` statements. -/
inductive Flat : Body → Prop
  | nil : Flat .nil
  | decl {k : Kind} {w : Wire} {l : Body} : Flat l → Flat (.cons (.decl k w) l)
  | ite {c : Bool} {a b l : Body} : (∀ n, ¬ Mentions n a) → (∀ n, ¬ Mentions n b) → Flat l → Flat (.cons (.ite c a b) l)

theorem flat_declared : ∀ {b : Body}, Flat b → ∀ n ∈ b.inputs, ∃ w ∈ declared b, w.name = n
  | .nil, _, n, h => by simp [Body.inputs] at h
  | .cons i l, hf, n, h => by
    have later : (∃ w ∈ declared l, w.name = n) → ∃ w ∈ declared (.cons i l), w.name = n := by
      rintro ⟨w, hw, e⟩
      refine ⟨w, ?_, e⟩
      unfold declared at hw ⊢
      rw [Body.wires, List.filterMap_append]
      exact List.mem_append_right _ hw
    rw [Body.inputs, List.mem_append] at h
    cases hf with
    | @decl k w _ hl =>
      rcases h with h | h
      · cases k with
        | input =>
          rw [Item.inputs, List.mem_singleton] at h
          exact ⟨w, by simp [declared, Body.wires, Item.wires], h.symm⟩
        | output => simp [Item.inputs] at h
        | intermediate => simp [Item.inputs] at h
      · exact later (flat_declared hl n h)
    | @ite c a b _ ha hb hl =>
      rcases h with h | h
      · rw [Item.inputs, List.mem_append] at h
        rcases h with h | h
        · exact absurd ((mentions_iff n a).1 h) (ha n)
        · exact absurd ((mentions_iff n b).1 h) (hb n)
      · exact later (flat_declared hl n h)

/-- **C102 (listed), partial.**  In full: each listed name is a public input of an accepted program.  This holds if the main template declares its inputs outside of
`if` statements. -/
theorem C102_listed_partial {list : List Name} {main : Body} (hf : Flat main) {rest : List Body} {s : Split} {subs : List Split}
    (h : program list main rest = .ok (s :: subs)) : ∀ n ∈ list, n ∈ s.publicInputs.ids := by
  intro n hn
  obtain ⟨-, he⟩ := program_ok h
  obtain ⟨rfl, -⟩ := List.cons.inj he
  obtain ⟨w, hw, rfl⟩ := flat_declared hf n ((mentions_iff n main).2 ((C102_check list main rest).1.1 ⟨_, h⟩ n hn))
  unfold split
  dsimp only
  rw [ids_toWires, ofKind_eq]
  exact List.mem_map.2 ⟨w, List.mem_filter.2 ⟨hw, by simpa using hn⟩, rfl⟩

/-! ### Cases -/

/-- `signal input a[2]; signal input b; signal output c; signal input d;` -/
def plain : Body :=
  .cons (.decl .input ⟨['a'], [2], none⟩) (.cons (.decl .input ⟨['b'], [], none⟩) (.cons (.decl .output ⟨['c'], [], none⟩)
    (.cons (.decl .input ⟨['d'], [], none⟩) .nil)))

example : Flat plain := .decl (.decl (.decl (.decl .nil)))

/-- `{public [d, a, d]}`: the signals `a[0]`, `a[1]` and `d` are public, in this order; not those of a second instance of the template. -/
example : (match program [['d'], ['a'], ['d']] plain [plain] with
    | .ok ss => ss.map fun s => (s.publicInputs.names []).map String.ofList
    | .error _ => []) = [["a[0]", "a[1]", "d"], []] := by decide +kernel

example : (match program [['d'], ['c']] plain [] with | .ok _ => [] | .error r => r) = [['c']] := by decide +kernel

/-- `template T(n) { if (n == 1) { signal input a; } else { signal a; } signal input b; … }`, for `n = 2`. -/
def branch : Body :=
  .cons (.ite false (.cons (.decl .input ⟨['a'], [], none⟩) .nil) (.cons (.decl .intermediate ⟨['a'], [], none⟩) .nil))
    (.cons (.decl .input ⟨['b'], [], none⟩) .nil)

/-- **C102 fails with `if`.**  `component main {public [a]} = T(2)` is accepted; nothing is public, and `a` is not an input. -/
theorem C102_listed_violated : ∃ s, program [['a']] branch [] = .ok [s] ∧ s.publicInputs = .nil ∧ ['a'] ∉ s.privateInputs.ids ∧
    ['a'] ∈ s.intermediates.ids :=
  ⟨_, rfl, by decide +kernel, by decide +kernel, by decide +kernel⟩

end Verif.Props.Public
