import Verif.Dag
import Verif.AlgebraLemmas
import Verif.BMapLemmas
import Verif.Props.Algebra2
import Mathlib.Data.List.Sort
import Mathlib.Data.List.Nodup

/-! # Lemmas about the template graph -/

set_option linter.unusedSectionVars false
set_option linter.unusedSimpArgs false

namespace Verif.Dag
open Verif.ModArith (Res Fail)
open Verif.Algebra
open Verif.Props.Algebra (ok_bind)

/-! ## Tables -/

theorem NMap.insert_fresh (m : NMap) (k : Name) (v : Nat) (h : k ∉ m.map Prod.fst) : NMap.insert m k v = m ++ [(k, v)] := by
  induction m with
  | nil => rfl
  | cons e m ih =>
    simp only [List.map_cons, List.mem_cons, not_or] at h
    simp only [NMap.insert, if_neg (Ne.symm h.1), ih h.2, List.cons_append]

theorem NMap.get_eq_some {m : NMap} (hn : (m.map Prod.fst).Nodup) {k : Name} {v : Nat} : NMap.get m k = some v ↔ (k, v) ∈ m := by
  induction m with
  | nil => simp [NMap.get]
  | cons e m ih =>
    obtain ⟨k', v'⟩ := e
    simp only [List.map_cons, List.nodup_cons] at hn
    simp only [NMap.get, List.mem_cons, Prod.mk.injEq]
    by_cases hk : k' = k
    · subst hk
      simp only [if_true, Option.some.injEq, true_and]
      constructor
      · rintro rfl; exact Or.inl rfl
      · rintro (h | h)
        · exact h.symm
        · exact absurd (List.mem_map_of_mem (f := Prod.fst) h) hn.1
    · rw [if_neg hk, ih hn.2]
      constructor
      · exact Or.inr
      · rintro (⟨h, _⟩ | h)
        · exact absurd h.symm hk
        · exact h

theorem NMap.get_isSome (m : NMap) (k : Name) : (NMap.get m k).isSome ↔ k ∈ m.map Prod.fst := by
  induction m with
  | nil => simp [NMap.get]
  | cons e m ih =>
    obtain ⟨k', v'⟩ := e
    simp only [NMap.get, List.map_cons, List.mem_cons]
    by_cases hk : k' = k
    · simp [hk]
    · rw [if_neg hk, ih]; simp [Ne.symm hk]

theorem setInsert_fresh (s : List Nat) (x : Nat) (h : x ∉ s) : setInsert s x = s ++ [x] := by
  unfold setInsert
  rw [if_neg]
  simpa using h

theorem mem_setInsert (s : List Nat) (x y : Nat) : y ∈ setInsert s x ↔ y ∈ s ∨ y = x := by
  unfold setInsert
  split
  · rename_i h
    simp only [List.contains_eq_mem, decide_eq_true_eq] at h
    constructor
    · exact Or.inl
    · rintro (h' | rfl)
      · exact h'
      · exact h
  · simp

theorem map_fst_zipIdx (l : List Name) (k : Nat) : (l.zipIdx k).map Prod.fst = l := List.zipIdx_map_fst k l

theorem map_snd_zipIdx (l : List Name) (k : Nat) : (l.zipIdx k).map Prod.snd = List.range' k l.length := List.zipIdx_map_snd k l

theorem range'_concat (s n : Nat) : List.range' s (n + 1) = List.range' s n ++ [s + n] := by
  rw [List.range'_1_concat]

/-! ## Updating the last node -/

theorem updateMain_append (ns : List Node) (n : Node) (adj : List (List Edge)) (f : Node → Node) :
    (Graph.mk (ns ++ [n]) adj).updateMain f = ⟨ns ++ [f n], adj⟩ := by
  simp [Graph.updateMain]

theorem foldl_updateMain {α : Type} (g : Node → α → Node) (l : List α) (ns : List Node) (n : Node) (adj : List (List Edge)) :
    l.foldl (fun d a => Graph.updateMain d fun n => g n a) ⟨ns ++ [n], adj⟩ = ⟨ns ++ [l.foldl g n], adj⟩ := by
  induction l generalizing n with
  | nil => rfl
  | cons a l ih => rw [List.foldl_cons, updateMain_append, ih, List.foldl_cons]

/-! ## Local signals -/

/-- Scalar signal names of a template in declaration order. -/
def locNames (t : Template) : List Name :=
  t.outputs.names [] ++ t.publicInputs.names [] ++ t.privateInputs.names [] ++ t.intermediates.names []

/-- Number of outputs. -/
def noOut (t : Template) : Nat := (t.outputs.names []).length
/-- Number of public inputs. -/
def noPub (t : Template) : Nat := (t.publicInputs.names []).length
/-- Number of private inputs. -/
def noPriv (t : Template) : Nat := (t.privateInputs.names []).length
/-- Number of intermediates. -/
def noInt (t : Template) : Nat := (t.intermediates.names []).length

/-- Number of local signals. -/
def noLoc (t : Template) : Nat := (locNames t).length

theorem noLoc_eq (t : Template) : noLoc t = noOut t + noPub t + noPriv t + noInt t := by
  simp [noLoc, locNames, noOut, noPub, noPriv, noInt, Nat.add_assoc]

/-- State of a node after adding some local signals. -/
structure Partial (n0 n : Node) (names : List Name) (forb io : List Nat) (o p i m : Nat) : Prop where
  name : n.name = n0.name
  parameters : n.parameters = n0.parameters
  custom : n.isCustomGate = n0.isCustomGate
  entryIn : n.entryIn = n0.entryIn
  entryOut : n.entryOut = names.length
  entryOutComponent : n.entryOutComponent = n0.entryOutComponent
  signals : n.numberOfSignals = names.length
  components : n.numberOfComponents = n0.numberOfComponents
  ints : n.intermediatesLength = m
  pubs : n.publicInputsLength = p
  ins : n.inputsLength = p + i
  outs : n.outputsLength = o
  corr : n.correspondence = names.zipIdx 1
  ordered : n.ordered = n0.ordered
  locals : n.locals = List.range' 1 names.length
  reach : n.reachables = List.range' 1 names.length
  forb : n.forbiddenIfMain = forb
  io : n.ioSignals = io
  constraints : n.constraints = n0.constraints

theorem zipIdx_concat (names : List Name) (x : Name) (k : Nat) : (names ++ [x]).zipIdx k = names.zipIdx k ++ [(x, k + names.length)] := by
  rw [List.zipIdx_append]; simp [Nat.add_comm]

theorem step_corr {names : List Name} {x : Name} (h : (names ++ [x]).Nodup) :
    NMap.insert (names.zipIdx 1) x (names.length + 1) = (names ++ [x]).zipIdx 1 := by
  rw [NMap.insert_fresh, zipIdx_concat, Nat.add_comm]
  rw [map_fst_zipIdx]
  rw [List.nodup_append] at h
  intro hx
  exact h.2.2 x hx x (by simp) rfl

theorem step_set (n : Nat) : setInsert (List.range' 1 n) (n + 1) = List.range' 1 (n + 1) := by
  rw [setInsert_fresh, range'_concat, Nat.add_comm]
  simp [Nat.add_comm]

theorem partial_output {n0 n : Node} {names : List Name} {io : List Nat} {o p i m : Nat} {x : Name}
    (h : Partial n0 n names (List.range (names.length + 1)) io o p i m) (hx : (names ++ [x]).Nodup) :
    Partial n0 (n.addOutput x) (names ++ [x]) (List.range ((names ++ [x]).length + 1)) (io ++ [names.length + 1]) (o + 1) p i m := by
  have hlen : (names ++ [x]).length = names.length + 1 := by simp
  refine ⟨h.name, h.parameters, h.custom, h.entryIn, ?_, h.entryOutComponent, ?_, h.components, h.ints, h.pubs, h.ins, ?_, ?_, h.ordered,
    ?_, ?_, ?_, ?_, h.constraints⟩
  · simp [Node.addOutput, h.entryOut]
  · simp [Node.addOutput, h.signals]
  · simp [Node.addOutput, h.outs]
  · simp only [Node.addOutput, h.corr, h.signals]; exact step_corr hx
  · simp only [Node.addOutput, h.locals, h.signals, hlen]; exact step_set _
  · simp only [Node.addOutput, h.reach, h.signals, hlen]; exact step_set _
  · simp only [Node.addOutput, h.forb, h.signals, hlen]
    rw [setInsert_fresh _ _ (by simp), List.range_succ (n := names.length + 1)]
  · simp [Node.addOutput, h.io, h.signals]

theorem partial_public {n0 n : Node} {names : List Name} {io : List Nat} {o p i m : Nat} {x : Name}
    (h : Partial n0 n names (List.range (names.length + 1)) io o p i m) (hx : (names ++ [x]).Nodup) :
    Partial n0 (n.addInput x true) (names ++ [x]) (List.range ((names ++ [x]).length + 1)) (io ++ [names.length + 1]) o (p + 1) i m := by
  have hlen : (names ++ [x]).length = names.length + 1 := by simp
  refine ⟨h.name, h.parameters, h.custom, h.entryIn, ?_, h.entryOutComponent, ?_, h.components, h.ints, ?_, ?_, h.outs, ?_, h.ordered,
    ?_, ?_, ?_, ?_, h.constraints⟩
  · simp [Node.addInput, h.entryOut]
  · simp [Node.addInput, h.signals]
  · simp [Node.addInput, h.pubs]
  · simp [Node.addInput, h.ins]; omega
  · simp only [Node.addInput, h.corr, h.signals]; exact step_corr hx
  · simp only [Node.addInput, h.locals, h.signals, hlen]; exact step_set _
  · simp only [Node.addInput, h.reach, h.signals, hlen]; exact step_set _
  · simp only [Node.addInput, h.forb, h.signals, hlen, if_true]
    rw [setInsert_fresh _ _ (by simp), List.range_succ (n := names.length + 1)]
  · simp [Node.addInput, h.io, h.signals]

theorem partial_private {n0 n : Node} {names : List Name} {forb io : List Nat} {o p i m : Nat} {x : Name}
    (h : Partial n0 n names forb io o p i m) (hx : (names ++ [x]).Nodup) :
    Partial n0 (n.addInput x false) (names ++ [x]) forb (io ++ [names.length + 1]) o p (i + 1) m := by
  have hlen : (names ++ [x]).length = names.length + 1 := by simp
  refine ⟨h.name, h.parameters, h.custom, h.entryIn, ?_, h.entryOutComponent, ?_, h.components, h.ints, ?_, ?_, h.outs, ?_, h.ordered,
    ?_, ?_, ?_, ?_, h.constraints⟩
  · simp [Node.addInput, h.entryOut]
  · simp [Node.addInput, h.signals]
  · simp [Node.addInput, h.pubs]
  · simp [Node.addInput, h.ins]; omega
  · simp only [Node.addInput, h.corr, h.signals]; exact step_corr hx
  · simp only [Node.addInput, h.locals, h.signals, hlen]; exact step_set _
  · simp only [Node.addInput, h.reach, h.signals, hlen]; exact step_set _
  · simp [Node.addInput, h.forb]
  · simp [Node.addInput, h.io, h.signals]

theorem partial_intermediate {n0 n : Node} {names : List Name} {forb io : List Nat} {o p i m : Nat} {x : Name}
    (h : Partial n0 n names forb io o p i m) (hx : (names ++ [x]).Nodup) :
    Partial n0 (n.addIntermediate x) (names ++ [x]) forb io o p i (m + 1) := by
  have hlen : (names ++ [x]).length = names.length + 1 := by simp
  refine ⟨h.name, h.parameters, h.custom, h.entryIn, ?_, h.entryOutComponent, ?_, h.components, ?_, h.pubs, h.ins, h.outs, ?_, h.ordered,
    ?_, ?_, h.forb, h.io, h.constraints⟩
  · simp [Node.addIntermediate, h.entryOut]
  · simp [Node.addIntermediate, h.signals]
  · simp [Node.addIntermediate, h.ints]
  · simp only [Node.addIntermediate, h.corr, h.signals]; exact step_corr hx
  · simp only [Node.addIntermediate, h.locals, h.signals, hlen]; exact step_set _
  · simp only [Node.addIntermediate, h.reach, h.signals, hlen]; exact step_set _

theorem nodup_prefix {names xs : List Name} {x : Name} (h : (names ++ x :: xs).Nodup) : (names ++ [x]).Nodup := by
  refine h.sublist ?_
  exact List.Sublist.append_left (List.Sublist.cons_cons x (List.nil_sublist xs)) names

theorem partial_outputs (xs : List Name) {n0 n : Node} {names : List Name} {io : List Nat} {o p i m : Nat}
    (h : Partial n0 n names (List.range (names.length + 1)) io o p i m) (hx : (names ++ xs).Nodup) :
    Partial n0 (xs.foldl Node.addOutput n) (names ++ xs) (List.range ((names ++ xs).length + 1))
      (io ++ List.range' (names.length + 1) xs.length) (o + xs.length) p i m := by
  induction xs generalizing n names io o with
  | nil => simpa using h
  | cons x xs ih =>
    have := ih (partial_output h (nodup_prefix hx)) (by simpa using hx)
    simpa [List.range'_succ, Nat.add_assoc, Nat.add_comm 1] using this

theorem partial_publics (xs : List Name) {n0 n : Node} {names : List Name} {io : List Nat} {o p i m : Nat}
    (h : Partial n0 n names (List.range (names.length + 1)) io o p i m) (hx : (names ++ xs).Nodup) :
    Partial n0 (xs.foldl (fun n x => n.addInput x true) n) (names ++ xs) (List.range ((names ++ xs).length + 1))
      (io ++ List.range' (names.length + 1) xs.length) o (p + xs.length) i m := by
  induction xs generalizing n names io p with
  | nil => simpa using h
  | cons x xs ih =>
    have := ih (partial_public h (nodup_prefix hx)) (by simpa using hx)
    simpa [List.range'_succ, Nat.add_assoc, Nat.add_comm 1] using this

theorem partial_privates (xs : List Name) {n0 n : Node} {names : List Name} {forb io : List Nat} {o p i m : Nat}
    (h : Partial n0 n names forb io o p i m) (hx : (names ++ xs).Nodup) :
    Partial n0 (xs.foldl (fun n x => n.addInput x false) n) (names ++ xs) forb
      (io ++ List.range' (names.length + 1) xs.length) o p (i + xs.length) m := by
  induction xs generalizing n names io i with
  | nil => simpa using h
  | cons x xs ih =>
    have := ih (partial_private h (nodup_prefix hx)) (by simpa using hx)
    simpa [List.range'_succ, Nat.add_assoc, Nat.add_comm 1] using this

theorem partial_intermediates (xs : List Name) {n0 n : Node} {names : List Name} {forb io : List Nat} {o p i m : Nat}
    (h : Partial n0 n names forb io o p i m) (hx : (names ++ xs).Nodup) :
    Partial n0 (xs.foldl Node.addIntermediate n) (names ++ xs) forb io o p i (m + xs.length) := by
  induction xs generalizing n names m with
  | nil => simpa using h
  | cons x xs ih =>
    have := ih (partial_intermediate h (nodup_prefix hx)) (by simpa using hx)
    simpa [Nat.add_assoc, Nat.add_comm 1] using this

/-- The node after `build_wires`. -/
theorem buildWires_spec (ns : List Node) (adj : List (List Edge)) (t : Template) (hn : (locNames t).Nodup) :
    ∃ n, buildWires (Graph.addNode ⟨ns, adj⟩ t.name t.parameters t.isCustomGate) t = ⟨ns ++ [n], adj ++ [[]]⟩ ∧
      Partial (Node.new t.name t.parameters t.isCustomGate) n (locNames t) (List.range (noOut t + noPub t + 1))
        (List.range' 1 (noOut t + noPub t + noPriv t)) (noOut t) (noPub t) (noPriv t) (noInt t) := by
  have h0 : Partial (Node.new t.name t.parameters t.isCustomGate) (Node.new t.name t.parameters t.isCustomGate) []
      (List.range ([] : List Name).length.succ) [] 0 0 0 0 := by
    constructor <;> rfl
  have hn1 : (([] : List Name) ++ t.outputs.names []).Nodup := by
    rw [List.nil_append]; unfold locNames at hn
    exact (List.nodup_append.1 (List.nodup_append.1 (List.nodup_append.1 hn).1).1).1
  have h1 := partial_outputs (t.outputs.names []) h0 hn1
  have hn2 : (([] : List Name) ++ t.outputs.names [] ++ t.publicInputs.names []).Nodup := by
    rw [List.nil_append]; unfold locNames at hn
    exact (List.nodup_append.1 (List.nodup_append.1 hn).1).1
  have h2 := partial_publics (t.publicInputs.names []) h1 hn2
  have hn3 : (([] : List Name) ++ t.outputs.names [] ++ t.publicInputs.names [] ++ t.privateInputs.names []).Nodup := by
    rw [List.nil_append]; unfold locNames at hn
    exact (List.nodup_append.1 hn).1
  have h3 := partial_privates (t.privateInputs.names []) h2 hn3
  have hn4 : (([] : List Name) ++ t.outputs.names [] ++ t.publicInputs.names [] ++ t.privateInputs.names [] ++
      t.intermediates.names []).Nodup := by
    rw [List.nil_append]; exact hn
  have h4 := partial_intermediates (t.intermediates.names []) h3 hn4
  have e1 : ([] : List Name) ++ t.outputs.names [] ++ t.publicInputs.names [] ++ t.privateInputs.names [] ++ t.intermediates.names [] =
      locNames t := by rw [List.nil_append]; rfl
  have e2 : List.range ((([] : List Name) ++ t.outputs.names [] ++ t.publicInputs.names []).length + 1) =
      List.range (noOut t + noPub t + 1) := by simp [noOut, noPub]
  have e3 : ([] : List Nat) ++ List.range' (([] : List Name).length + 1) (t.outputs.names []).length ++
      List.range' ((([] : List Name) ++ t.outputs.names []).length + 1) (t.publicInputs.names []).length ++
      List.range' ((([] : List Name) ++ t.outputs.names [] ++ t.publicInputs.names []).length + 1) (t.privateInputs.names []).length =
      List.range' 1 (noOut t + noPub t + noPriv t) := by
    simp only [List.nil_append, List.length_nil, List.length_append, Nat.zero_add, noOut, noPub, noPriv]
    rw [Nat.add_comm (t.outputs.names []).length 1, List.range'_append_1,
      Nat.add_comm ((t.outputs.names []).length + (t.publicInputs.names []).length) 1, List.range'_append_1]
  rw [e1, e2, e3] at h4
  refine ⟨_, ?_, by simpa [noOut, noPub, noPriv, noInt] using h4⟩
  simp only [buildWires, Graph.addNode]
  unfold Graph.addOutput Graph.addInput Graph.addIntermediate
  rw [foldl_updateMain Node.addOutput, foldl_updateMain (fun n x => Node.addInput n x true),
      foldl_updateMain (fun n x => Node.addInput n x false), foldl_updateMain Node.addIntermediate]

/-! ## Subcomponents -/

/-- Subcomponents laid out one after the other: label, node and start. -/
def layout (sz : Nat → Nat) : Nat → List (Name × Nat) → List (Name × Nat × Nat)
  | _, [] => []
  | o, c :: cs => (c.1, c.2, o) :: layout sz (o + sz c.2) cs

/-- The edges of a node. -/
def edgesOf (sz cp : Nat → Nat) : Nat → Nat → List (Name × Nat) → List Edge
  | _, _, [] => []
  | o, k, c :: cs => ⟨c.1, c.2, o, o + sz c.2, k, k + cp c.2⟩ :: edgesOf sz cp (o + sz c.2) (k + cp c.2) cs

/-- The jumps of a node. -/
def jumpsOf (sz cp : Nat → Nat) : Nat → Nat → List (Name × Nat) → List Jump
  | _, _, [] => []
  | o, k, c :: cs => ⟨o, k, sz c.2, cp c.2⟩ :: jumpsOf sz cp (o + sz c.2) (k + cp c.2) cs

/-- The entries of the parent's table for one subcomponent. -/
def childNames (nm : Nat → List Name) (k : Name × Nat × Nat) : NMap :=
  ((nm k.2.1).zipIdx (k.2.2 + 1)).map fun e => (k.1 ++ '.' :: e.1, e.2)

/-- What is needed of a node used as subcomponent. -/
structure ChildOK (sz cp : Nat → Nat) (nm : Nat → List Name) (io : Nat → Nat) (j : Nat) (child : Node) : Prop where
  signals : child.numberOfSignals = sz j
  components : child.numberOfComponents = cp j
  entries : localEntries child = (nm j).zipIdx 1
  io : child.inputsLength + child.outputsLength = io j

theorem zipIdx_shift (l : List Name) (o k : Nat) : l.zipIdx (o + k) = (l.zipIdx k).map fun e => (e.1, o + e.2) := by
  induction l generalizing k with
  | nil => rfl
  | cons a l ih => simp only [List.zipIdx_cons, List.map_cons]; rw [Nat.add_assoc, ih]

theorem addNames_fold (label : Name) (o io : Nat) (l : List (Name × Nat)) (n : Node)
    (hn : (n.correspondence.map Prod.fst ++ l.map fun e => label ++ '.' :: e.1).Nodup) :
    ∃ R, l.foldl (fun n e => { n with
        correspondence := NMap.insert n.correspondence (label ++ '.' :: e.1) (o + e.2)
        reachables := if e.2 ≤ io then setInsert n.reachables (o + e.2) else n.reachables }) n =
      { n with correspondence := n.correspondence ++ l.map (fun e => (label ++ '.' :: e.1, o + e.2)), reachables := R } ∧
      ∀ x, x ∈ R ↔ x ∈ n.reachables ∨ ∃ e ∈ l, e.2 ≤ io ∧ x = o + e.2 := by
  induction l generalizing n with
  | nil => exact ⟨n.reachables, by simp, by simp⟩
  | cons e l ih =>
    have hfresh : label ++ '.' :: e.1 ∉ n.correspondence.map Prod.fst := by
      intro h
      rw [List.nodup_append] at hn
      exact hn.2.2 _ h _ (by simp) rfl
    obtain ⟨R, h1, h2⟩ := ih { n with
        correspondence := NMap.insert n.correspondence (label ++ '.' :: e.1) (o + e.2)
        reachables := if e.2 ≤ io then setInsert n.reachables (o + e.2) else n.reachables } (by
      simp only [NMap.insert_fresh _ _ _ hfresh, List.map_append, List.map_cons, List.map_nil, List.append_assoc, List.singleton_append]
      simpa using hn)
    refine ⟨R, ?_, fun x => ?_⟩
    · rw [List.foldl_cons, h1]
      simp only [NMap.insert_fresh _ _ _ hfresh, List.map_cons, List.append_assoc, List.singleton_append]
    · rw [h2]
      simp only [List.mem_cons, exists_eq_or_imp]
      split
      · rename_i hle
        simp only [mem_setInsert, hle, true_and, or_assoc]
      · rename_i hle
        simp only [hle, false_and, false_or]

theorem addChildNames_spec {sz cp : Nat → Nat} {nm : Nat → List Name} {io : Nat → Nat} {j : Nat} {child : Node}
    (hc : ChildOK sz cp nm io j child) (label : Name) (o : Nat) (n : Node)
    (hn : ((n.correspondence ++ childNames nm (label, j, o)).map Prod.fst).Nodup) :
    ∃ R, addChildNames child label o n =
      { n with correspondence := n.correspondence ++ childNames nm (label, j, o), reachables := R } ∧
      ∀ x, x ∈ R ↔ x ∈ n.reachables ∨ (o < x ∧ x ≤ o + io j ∧ x ≤ o + (nm j).length) := by
  have hkey : childNames nm (label, j, o) = ((nm j).zipIdx 1).map (fun e => (label ++ '.' :: e.1, o + e.2)) := by
    unfold childNames
    simp only
    rw [zipIdx_shift _ o 1, List.map_map]
    rfl
  rw [hkey] at hn ⊢
  have hfold : addChildNames child label o n = ((nm j).zipIdx 1).foldl (fun n e => { n with
        correspondence := NMap.insert n.correspondence (label ++ '.' :: e.1) (o + e.2)
        reachables := if e.2 ≤ io j then setInsert n.reachables (o + e.2) else n.reachables }) n := by
    rw [← hc.entries]
    unfold localEntries addChildNames
    rw [List.foldl_filter, hc.io]
  obtain ⟨R, h1, h2⟩ := addNames_fold label o (io j) ((nm j).zipIdx 1) n (by
    simpa [List.map_append, List.map_map, Function.comp_def] using hn)
  refine ⟨R, by rw [hfold, h1], fun x => ?_⟩
  rw [h2]
  refine or_congr Iff.rfl ?_
  constructor
  · rintro ⟨e, he, hle, rfl⟩
    have : e.2 ∈ List.range' 1 (nm j).length := by rw [← map_snd_zipIdx]; exact List.mem_map_of_mem he
    rw [List.mem_range'_1] at this
    omega
  · rintro ⟨a, b, c⟩
    have : x - o ∈ ((nm j).zipIdx 1).map Prod.snd := by rw [map_snd_zipIdx, List.mem_range'_1]; omega
    obtain ⟨e, he, hx⟩ := List.mem_map.1 this
    exact ⟨e, he, by omega, by omega⟩

/-- One step of `build_connexions`. -/
theorem addEdge_spec {sz cp : Nat → Nat} {nm : Nat → List Name} {io : Nat → Nat} (ns : List Node) (adj : List (List Edge)) (n : Node)
    (es : List Edge) (label : Name) (j : Nat) {child : Node} (hj : ns[j]? = some child) (hc : ChildOK sz cp nm io j child)
    (hn : ((n.correspondence ++ childNames nm (label, j, n.numberOfSignals)).map Prod.fst).Nodup) :
    ∃ R, Graph.addEdge ⟨ns ++ [n], adj ++ [es]⟩ j label =
      ⟨ns ++ [{ n with
          numberOfSignals := n.numberOfSignals + sz j
          entryOut := n.entryOut + sz j
          numberOfComponents := n.numberOfComponents + cp j
          entryOutComponent := n.entryOutComponent + cp j
          correspondence := n.correspondence ++ childNames nm (label, j, n.numberOfSignals)
          reachables := R }],
        adj ++ [es ++ [⟨label, j, n.numberOfSignals, n.numberOfSignals + sz j, n.numberOfComponents, n.numberOfComponents + cp j⟩]]⟩ ∧
      ∀ x, x ∈ R ↔ x ∈ n.reachables ∨
        (n.numberOfSignals < x ∧ x ≤ n.numberOfSignals + io j ∧ x ≤ n.numberOfSignals + (nm j).length) := by
  have hlt : j < ns.length := (List.getElem?_eq_some_iff.1 hj).1
  obtain ⟨R, h1, h2⟩ := addChildNames_spec hc label n.numberOfSignals { n with
        numberOfSignals := n.numberOfSignals + child.numberOfSignals
        entryOut := n.entryOut + child.numberOfSignals
        numberOfComponents := n.numberOfComponents + child.numberOfComponents
        entryOutComponent := n.entryOutComponent + child.numberOfComponents } hn
  refine ⟨R, ?_, h2⟩
  unfold Graph.addEdge
  have hmain : j < Graph.mainId ⟨ns ++ [n], adj ++ [es]⟩ := by simp [Graph.mainId]; exact hlt
  rw [if_pos hmain]
  simp only [List.getElem?_append_left hlt, hj, List.getLast?_concat, List.dropLast_concat, Option.getD_some]
  rw [h1, hc.signals, hc.components]

theorem connexions_spec {sz cp : Nat → Nat} {nm : Nat → List Name} {io : Nat → Nat} (ns : List Node) (adj : List (List Edge))
    (cs : List (Name × Nat)) (hcs : ∀ c ∈ cs, ∃ child, ns[c.2]? = some child ∧ ChildOK sz cp nm io c.2 child) (n : Node)
    (es : List Edge) (js : List Jump) (he : n.entryOut = n.numberOfSignals)
    (hn : ((n.correspondence ++ (layout sz n.numberOfSignals cs).flatMap (childNames nm)).map Prod.fst).Nodup) :
    ∃ R, cs.foldl addConnexion (⟨ns ++ [n], adj ++ [es]⟩, js) =
      (⟨ns ++ [{ n with
          numberOfSignals := n.numberOfSignals + (cs.map fun c => sz c.2).sum
          entryOut := n.numberOfSignals + (cs.map fun c => sz c.2).sum
          numberOfComponents := n.numberOfComponents + (cs.map fun c => cp c.2).sum
          entryOutComponent := n.entryOutComponent + (cs.map fun c => cp c.2).sum
          correspondence := n.correspondence ++ (layout sz n.numberOfSignals cs).flatMap (childNames nm)
          reachables := R }],
        adj ++ [es ++ edgesOf sz cp n.numberOfSignals n.numberOfComponents cs]⟩,
        js ++ jumpsOf sz cp n.numberOfSignals n.entryOutComponent cs) ∧
      ∀ x, x ∈ R ↔ x ∈ n.reachables ∨ ∃ k ∈ layout sz n.numberOfSignals cs,
        k.2.2 < x ∧ x ≤ k.2.2 + io k.2.1 ∧ x ≤ k.2.2 + (nm k.2.1).length := by
  induction cs generalizing n es js with
  | nil =>
    refine ⟨n.reachables, ?_, by simp [layout]⟩
    simp only [List.foldl_nil, layout, edgesOf, jumpsOf, List.map_nil, List.sum_nil, List.flatMap_nil, List.append_nil, Nat.add_zero]
    cases n; simp only at he; subst he; rfl
  | cons c cs ih =>
    obtain ⟨child, hj, hc⟩ := hcs c (by simp)
    have hn1 : ((n.correspondence ++ childNames nm (c.1, c.2, n.numberOfSignals)).map Prod.fst).Nodup := by
      refine hn.sublist (List.Sublist.map _ (List.Sublist.append_left ?_ _))
      simp only [layout, List.flatMap_cons]
      exact List.sublist_append_left _ _
    obtain ⟨R1, h1, h2⟩ := addEdge_spec ns adj n es c.1 c.2 hj hc hn1
    obtain ⟨R, h3, h4⟩ := ih (fun c' hc' => hcs c' (by simp [hc'])) { n with
          numberOfSignals := n.numberOfSignals + sz c.2
          entryOut := n.entryOut + sz c.2
          numberOfComponents := n.numberOfComponents + cp c.2
          entryOutComponent := n.entryOutComponent + cp c.2
          correspondence := n.correspondence ++ childNames nm (c.1, c.2, n.numberOfSignals)
          reachables := R1 }
        (es ++ [⟨c.1, c.2, n.numberOfSignals, n.numberOfSignals + sz c.2, n.numberOfComponents, n.numberOfComponents + cp c.2⟩])
        (js ++ [⟨n.numberOfSignals, n.entryOutComponent, sz c.2, cp c.2⟩]) (by simp [he]) (by
          simpa [layout, List.append_assoc] using hn)
    refine ⟨R, ?_, fun x => ?_⟩
    · have hstep : addConnexion (⟨ns ++ [n], adj ++ [es]⟩, js) c = (⟨ns ++ [{ n with
          numberOfSignals := n.numberOfSignals + sz c.2
          entryOut := n.entryOut + sz c.2
          numberOfComponents := n.numberOfComponents + cp c.2
          entryOutComponent := n.entryOutComponent + cp c.2
          correspondence := n.correspondence ++ childNames nm (c.1, c.2, n.numberOfSignals)
          reachables := R1 }],
          adj ++ [es ++ [⟨c.1, c.2, n.numberOfSignals, n.numberOfSignals + sz c.2, n.numberOfComponents,
            n.numberOfComponents + cp c.2⟩]]⟩, js ++ [⟨n.numberOfSignals, n.entryOutComponent, sz c.2, cp c.2⟩]) := by
        unfold addConnexion
        simp only [h1]
        simp [Graph.entryOuts, he]
      rw [List.foldl_cons, hstep, h3]
      simp only [layout, edgesOf, jumpsOf, List.map_cons, List.sum_cons, List.flatMap_cons, List.append_assoc, Nat.add_assoc,
        List.singleton_append]
    · rw [h4]
      simp only [h2, layout, List.mem_cons, exists_eq_or_imp, or_assoc]

/-! ## The whole program -/

/-- Entry `i` is the weight of template `i` plus the entries of its subcomponents. -/
def totals (w : Template → Nat) (ts : List Template) : List Nat :=
  ts.foldl (fun acc t => acc ++ [w t + (t.connexions.map fun c => acc.getD c.2 0).sum]) []

/-- Number of signals of an instance of template `i` including all its subcomponents. -/
def size (ts : List Template) (i : Nat) : Nat := (totals noLoc ts).getD i 0

/-- Number of components of an instance of template `i`, itself included. -/
def comps (ts : List Template) (i : Nat) : Nat := (totals (fun _ => 1) ts).getD i 0

/-- Local names of template `i`. -/
def namesAt (ts : List Template) (i : Nat) : List Name := (ts[i]?.map locNames).getD []

/-- Number of input and output signals of template `i`. -/
def ioAt (ts : List Template) (i : Nat) : Nat := (ts[i]?.map fun t => noPub t + noPriv t + noOut t).getD 0

/-- The subcomponents of a template: label, template and relative start. -/
def kids (ts : List Template) (t : Template) : List (Name × Nat × Nat) := layout (size ts) (noLoc t) t.connexions

/-- The signal table of a template: local signals, then the signals of its direct subcomponents. -/
def table (ts : List Template) (t : Template) : NMap := (locNames t).zipIdx 1 ++ (kids ts t).flatMap (childNames (namesAt ts))

/-- Subcomponents are earlier templates. -/
def Ordered (ts : List Template) : Prop := ∀ (i : Nat) (t : Template), ts[i]? = some t → ∀ c ∈ t.connexions, c.2 < i

theorem totals_concat (w : Template → Nat) (ts : List Template) (t : Template) :
    totals w (ts ++ [t]) = totals w ts ++ [w t + (t.connexions.map fun c => (totals w ts).getD c.2 0).sum] := by
  simp [totals, List.foldl_append]

theorem length_totals (w : Template → Nat) (ts : List Template) : (totals w ts).length = ts.length := by
  induction ts using List.reverseRecOn with
  | nil => rfl
  | append_singleton ts t ih => rw [totals_concat]; simp [ih]

theorem totals_eq (w : Template → Nat) (ts : List Template) (ho : Ordered ts) : ∀ i t, ts[i]? = some t →
    (totals w ts).getD i 0 = w t + (t.connexions.map fun c => (totals w ts).getD c.2 0).sum := by
  induction ts using List.reverseRecOn with
  | nil => intro i t h; simp at h
  | append_singleton ts t0 ih =>
    have ho' : Ordered ts := fun i t h => ho i t (by
      rw [List.getElem?_append_left (List.getElem?_eq_some_iff.1 h).1]; exact h)
    intro i t h
    have hil : i < ts.length + 1 := by
      have := (List.getElem?_eq_some_iff.1 h).1
      simpa using this
    have hget : ∀ j, j < ts.length → (totals w (ts ++ [t0])).getD j 0 = (totals w ts).getD j 0 := by
      intro j hj
      rw [totals_concat]
      simp [List.getD_eq_getElem?_getD, List.getElem?_append_left (show j < (totals w ts).length by rw [length_totals]; exact hj)]
    have hsum : (t.connexions.map fun c => (totals w (ts ++ [t0])).getD c.2 0).sum =
        (t.connexions.map fun c => (totals w ts).getD c.2 0).sum := by
      congr 1
      apply List.map_congr_left
      intro c hc
      exact hget c.2 (by have := ho i t h c hc; omega)
    rw [hsum]
    by_cases hi : i < ts.length
    · rw [hget i hi]
      exact ih ho' i t (by rw [← h, List.getElem?_append_left hi])
    · have hi' : i = ts.length := by omega
      subst hi'
      simp only [List.getElem?_concat_length, Option.some.injEq] at h
      subst h
      rw [totals_concat, List.getD_eq_getElem?_getD, ← length_totals w ts, List.getElem?_concat_length]
      rfl

theorem size_eq {ts : List Template} (ho : Ordered ts) {i : Nat} {t : Template} (h : ts[i]? = some t) :
    size ts i = noLoc t + (t.connexions.map fun c => size ts c.2).sum := totals_eq noLoc ts ho i t h

theorem comps_eq {ts : List Template} (ho : Ordered ts) {i : Nat} {t : Template} (h : ts[i]? = some t) :
    comps ts i = 1 + (t.connexions.map fun c => comps ts c.2).sum := totals_eq (fun _ => 1) ts ho i t h

theorem namesAt_eq {ts : List Template} {i : Nat} {t : Template} (h : ts[i]? = some t) : namesAt ts i = locNames t := by
  simp [namesAt, h]

theorem ioAt_eq {ts : List Template} {i : Nat} {t : Template} (h : ts[i]? = some t) : ioAt ts i = noPub t + noPriv t + noOut t := by
  simp [ioAt, h]

theorem layout_ge {sz : Nat → Nat} {o : Nat} {cs : List (Name × Nat)} {k : Name × Nat × Nat} (h : k ∈ layout sz o cs) : o ≤ k.2.2 := by
  induction cs generalizing o with
  | nil => simp [layout] at h
  | cons c cs ih =>
    simp only [layout, List.mem_cons] at h
    rcases h with rfl | h
    · exact le_rfl
    · have := ih h; omega

theorem layout_target {sz : Nat → Nat} {o : Nat} {cs : List (Name × Nat)} {k : Name × Nat × Nat} (h : k ∈ layout sz o cs) :
    (k.1, k.2.1) ∈ cs := by
  induction cs generalizing o with
  | nil => simp [layout] at h
  | cons c cs ih =>
    simp only [layout, List.mem_cons] at h
    rcases h with rfl | h
    · exact List.mem_cons_self
    · exact List.mem_cons_of_mem _ (ih h)

/-- What the finished graph contains for template `t` at position `i`; `cs` are its constraints. -/
structure NodeOK (ts : List Template) (i : Nat) (t : Template) (n : Node) (es : List Edge) (cs : List C) : Prop where
  name : n.name = t.name
  parameters : n.parameters = t.parameters
  custom : n.isCustomGate = t.isCustomGate
  entryIn : n.entryIn = 0
  entryOut : n.entryOut = size ts i
  entryOutComponent : n.entryOutComponent + 1 = comps ts i
  signals : n.numberOfSignals = size ts i
  components : n.numberOfComponents = comps ts i
  ints : n.intermediatesLength = noInt t
  pubs : n.publicInputsLength = noPub t
  ins : n.inputsLength = noPub t + noPriv t
  outs : n.outputsLength = noOut t
  corr : n.correspondence = table ts t
  ordered : n.ordered = t.ordered
  locals : n.locals = List.range' 1 (noLoc t)
  reach : ∀ x, x ∈ n.reachables ↔ (1 ≤ x ∧ x ≤ noLoc t) ∨ ∃ k ∈ kids ts t, k.2.2 < x ∧ x ≤ k.2.2 + ioAt ts k.2.1 ∧
    x ≤ k.2.2 + (namesAt ts k.2.1).length
  forb : n.forbiddenIfMain = List.range (noOut t + noPub t + 1)
  io : n.ioSignals = List.range' 1 (noOut t + noPub t + noPriv t)
  edges : es = edgesOf (size ts) (comps ts) (noLoc t) 1 t.connexions
  constraints : n.constraints = cs

theorem localEntries_table (ts : List Template) (t : Template) :
    (table ts t).filter (fun e => (List.range' 1 (noLoc t)).contains e.2) = (locNames t).zipIdx 1 := by
  unfold table
  rw [List.filter_append]
  have h1 : ((locNames t).zipIdx 1).filter (fun e => (List.range' 1 (noLoc t)).contains e.2) = (locNames t).zipIdx 1 := by
    rw [List.filter_eq_self]
    intro e he
    have : e.2 ∈ List.range' 1 (locNames t).length := by rw [← map_snd_zipIdx]; exact List.mem_map_of_mem he
    simpa [noLoc] using this
  have h2 : ((kids ts t).flatMap (childNames (namesAt ts))).filter (fun e => (List.range' 1 (noLoc t)).contains e.2) = [] := by
    rw [List.filter_eq_nil_iff]
    intro e he
    rw [List.mem_flatMap] at he
    obtain ⟨k, hk, hek⟩ := he
    have hge := layout_ge hk
    unfold childNames at hek
    obtain ⟨e', he', rfl⟩ := List.mem_map.1 hek
    have : e'.2 ∈ List.range' (k.2.2 + 1) (namesAt ts k.2.1).length := by rw [← map_snd_zipIdx]; exact List.mem_map_of_mem he'
    rw [List.mem_range'_1] at this
    simp only [List.contains_eq_mem, decide_eq_true_eq, List.mem_range'_1]
    omega
  rw [h1, h2, List.append_nil]

theorem NodeOK.entries {ts : List Template} {i : Nat} {t : Template} {n : Node} {es : List Edge} {cs : List C}
    (h : NodeOK ts i t n es cs) : localEntries n = (locNames t).zipIdx 1 := by
  unfold localEntries
  rw [h.corr, h.locals]
  exact localEntries_table ts t

theorem NodeOK.child {ts : List Template} {i : Nat} {t : Template} {n : Node} {es : List Edge} {cs : List C}
    (h : NodeOK ts i t n es cs) (ht : ts[i]? = some t) : ChildOK (size ts) (comps ts) (namesAt ts) (ioAt ts) i n :=
  ⟨h.signals, h.components, by rw [h.entries, namesAt_eq ht], by rw [h.ins, h.outs, ioAt_eq ht]⟩

theorem buildConstraints_spec (ns : List Node) (adj : List (List Edge)) (m : NMap) (cs : List (Constraint Name)) (rs : List C)
    (h : cs.mapM (fun c => c.applyCorrespondence fun s => NMap.get m s) = .ok rs) (n : Node) (hm : n.correspondence = m) :
    cs.foldlM (fun (d : Graph) c => do
      match d.nodes.getLast? with
      | none => .error .panic
      | some n =>
        let cc ← c.applyCorrespondence (fun s => NMap.get n.correspondence s)
        .ok (d.addConstraint cc)) ⟨ns ++ [n], adj⟩ =
      (.ok ⟨ns ++ [{ n with constraints := n.constraints ++ rs }], adj⟩ : Res Graph) := by
  induction cs generalizing n rs with
  | nil =>
    rw [List.mapM_nil] at h
    cases h
    simp [pure, Except.pure]
  | cons c cs ih =>
    rw [List.mapM_cons] at h
    cases hc : c.applyCorrespondence (fun s => NMap.get m s) with
    | error e => rw [hc] at h; cases h
    | ok c' =>
      rw [hc, ok_bind] at h
      cases hr : cs.mapM (fun c => c.applyCorrespondence fun s => NMap.get m s) with
      | error e => rw [hr] at h; cases h
      | ok rs' =>
        rw [hr, ok_bind] at h
        cases h
        rw [List.foldlM_cons]
        simp only [List.getLast?_concat, hm, hc, ok_bind]
        rw [Graph.addConstraint, updateMain_append, ih rs' hr (n.addConstraint c') (by simp [Node.addConstraint, hm])]
        simp [Node.addConstraint, hm]

/-- The constraints of a template over signal numbers, before cleaning. -/
def numbered (ts : List Template) (t : Template) : Res (List C) :=
  t.constraints.mapM fun c => c.applyCorrespondence fun s => NMap.get (table ts t) s

/-- A program whose names resolve: subcomponents come earlier, no name clashes, constraints mention known names. -/
structure Resolves (ts : List Template) : Prop where
  order : Ordered ts
  fresh : ∀ t ∈ ts, ((table ts t).map Prod.fst).Nodup
  known : ∀ t ∈ ts, ∃ rs, numbered ts t = .ok rs

/-- The graph after inserting the first `k` templates. -/
structure Inv (ts : List Template) (k : Nat) (d : Graph) : Prop where
  nodes : d.nodes.length = k
  adj : d.adjacency.length = k
  ok : ∀ i < k, ∀ t, ts[i]? = some t → ∃ n es cs, d.nodes[i]? = some n ∧ d.adjacency[i]? = some es ∧ NodeOK ts i t n es cs ∧
    numbered ts t = .ok cs

theorem foldl_addOrdered (l : List Name) (n : Node) : l.foldl Node.addOrdered n = { n with ordered := n.ordered ++ l } := by
  induction l generalizing n with
  | nil => simp
  | cons a l ih => rw [List.foldl_cons, ih]; simp [Node.addOrdered]

theorem insertTemplate_spec {ts : List Template} (hr : Resolves ts) {k : Nat} {d : Graph} (hi : Inv ts k d) {t : Template}
    (ht : ts[k]? = some t) : ∃ d', insertTemplate d t = .ok d' ∧ Inv ts (k + 1) d' ∧
      jumpsTemplate d t = jumpsOf (size ts) (comps ts) (noLoc t) 0 t.connexions := by
  obtain ⟨ns, adj⟩ := d
  have hmem : t ∈ ts := List.mem_of_getElem? ht
  have hfresh := hr.fresh t hmem
  have hloc : (locNames t).Nodup := by
    have : (locNames t).Sublist ((table ts t).map Prod.fst) := by
      unfold table; rw [List.map_append, map_fst_zipIdx]; exact List.sublist_append_left _ _
    exact hfresh.sublist this
  obtain ⟨n, h1, h2⟩ := buildWires_spec ns adj t hloc
  obtain ⟨rs, hrs⟩ := hr.known t hmem
  have hord : buildOrdered ⟨ns ++ [n], adj ++ [[]]⟩ t = ⟨ns ++ [{ n with ordered := n.ordered ++ t.ordered }], adj ++ [[]]⟩ := by
    unfold buildOrdered Graph.addOrdered
    rw [foldl_updateMain Node.addOrdered, foldl_addOrdered]
  have hnl : n.numberOfSignals = noLoc t := h2.signals
  obtain ⟨R, h3, h4⟩ := connexions_spec (sz := size ts) (cp := comps ts) (nm := namesAt ts) (io := ioAt ts) ns adj t.connexions (by
      intro c hc
      have hlt := hr.order k t ht c hc
      obtain ⟨tc, htc⟩ : ∃ tc, ts[c.2]? = some tc := by
        have := (List.getElem?_eq_some_iff.1 ht).1
        exact ⟨ts[c.2]'(by omega), List.getElem?_eq_getElem _⟩
      obtain ⟨nc, ec, cc, g1, g2, g3, g4⟩ := hi.ok c.2 hlt tc htc
      exact ⟨nc, g1, g3.child htc⟩) { n with ordered := n.ordered ++ t.ordered } [] [] (by simp [h2.entryOut, h2.signals]) (by
      simp only [h2.corr, hnl]; exact hfresh)
  simp only [List.nil_append] at h3
  have hcorr : n.correspondence ++ (layout (size ts) n.numberOfSignals t.connexions).flatMap (childNames (namesAt ts)) = table ts t := by
    rw [h2.corr, hnl]; rfl
  have h5 := buildConstraints_spec (ns) (adj ++ [edgesOf (size ts) (comps ts) n.numberOfSignals n.numberOfComponents t.connexions])
    (table ts t) t.constraints rs hrs { n with
          ordered := n.ordered ++ t.ordered
          numberOfSignals := n.numberOfSignals + (t.connexions.map fun c => size ts c.2).sum
          entryOut := n.numberOfSignals + (t.connexions.map fun c => size ts c.2).sum
          numberOfComponents := n.numberOfComponents + (t.connexions.map fun c => comps ts c.2).sum
          entryOutComponent := n.entryOutComponent + (t.connexions.map fun c => comps ts c.2).sum
          correspondence := n.correspondence ++ (layout (size ts) n.numberOfSignals t.connexions).flatMap (childNames (namesAt ts))
          reachables := R } hcorr
  refine ⟨_, by
    unfold insertTemplate
    simp only [h1, hord]
    unfold buildConnexions
    rw [h3]
    exact h5, ?_, ?_⟩
  rotate_left
  · unfold jumpsTemplate
    simp only [h1, hord]
    unfold buildConnexions
    rw [h3]
    simp only
    rw [hnl, show n.entryOutComponent = 0 from h2.entryOutComponent]
  · have hk : ns.length = k := hi.nodes
    have hka : adj.length = k := hi.adj
    refine ⟨by simp [hk], by simp [hka], fun i hik t' ht' => ?_⟩
    by_cases hlt : i < k
    · obtain ⟨nc, ec, cc, g1, g2, g3, g4⟩ := hi.ok i hlt t' ht'
      refine ⟨nc, ec, cc, ?_, ?_, g3, g4⟩
      · rw [List.getElem?_append_left (by omega)]; exact g1
      · rw [List.getElem?_append_left (by omega)]; exact g2
    · have : i = k := by omega
      subst this
      rw [ht] at ht'; cases ht'
      refine ⟨_, _, rs, by simp only; rw [← hk]; exact List.getElem?_concat_length,
        by simp only; rw [← hka]; exact List.getElem?_concat_length, ?_, hrs⟩
      have hs := size_eq hr.order ht
      have hcomp := comps_eq hr.order ht
      have hnew : n.numberOfComponents = 1 := h2.components
      have hnew' : n.entryOutComponent = 0 := h2.entryOutComponent
      constructor
      · exact h2.name
      · exact h2.parameters
      · exact h2.custom
      · exact h2.entryIn
      · simp only; rw [hnl, hs]
      · simp only; rw [hcomp, hnew']; omega
      · simp only; rw [hnl, hs]
      · simp only; rw [hcomp, hnew]
      · exact h2.ints
      · exact h2.pubs
      · exact h2.ins
      · exact h2.outs
      · exact hcorr
      · simp only; rw [h2.ordered]; simp [Node.new]
      · exact h2.locals
      · intro x
        simp only [h4, h2.reach, List.mem_range'_1, hnl]
        refine or_congr ?_ Iff.rfl
        have : (locNames t).length = noLoc t := rfl
        omega
      · exact h2.forb
      · exact h2.io
      · rw [hnl, hnew]
      · simp only; rw [h2.constraints]; simp [Node.new]

theorem inserted_spec {ts : List Template} (hr : Resolves ts) :
    ∃ d, ts.foldlM insertTemplate Graph.new = .ok d ∧ Inv ts ts.length d := by
  have : ∀ k ≤ ts.length, ∃ d, (ts.take k).foldlM insertTemplate Graph.new = .ok d ∧ Inv ts k d := by
    intro k
    induction k with
    | zero => intro _; exact ⟨Graph.new, by simp [pure, Except.pure], ⟨rfl, rfl, fun i h => absurd h (by omega)⟩⟩
    | succ k ih =>
      intro hk
      obtain ⟨d, h1, h2⟩ := ih (by omega)
      have ht : ts[k]? = some (ts[k]'(by omega)) := List.getElem?_eq_getElem _
      obtain ⟨d', h3, h4, _⟩ := insertTemplate_spec hr h2 ht
      refine ⟨d', ?_, h4⟩
      rw [List.take_add_one, ht, List.foldlM_append, h1, ok_bind]
      simp [h3]
  obtain ⟨d, h1, h2⟩ := this ts.length le_rfl
  rw [List.take_length] at h1
  exact ⟨d, h1, h2⟩

theorem buildJumps_spec {ts : List Template} (hr : Resolves ts) :
    ∃ d js, buildJumps ts = .ok (d, js) ∧ js = ts.map fun t => jumpsOf (size ts) (comps ts) (noLoc t) 0 t.connexions := by
  have : ∀ k ≤ ts.length, ∃ d, (ts.take k).foldlM (fun (acc : Graph × List (List Jump)) t => (do
      let d ← insertTemplate acc.1 t
      .ok (d, acc.2 ++ [jumpsTemplate acc.1 t]) : Res (Graph × List (List Jump)))) (Graph.new, []) =
      .ok (d, (ts.take k).map fun t => jumpsOf (size ts) (comps ts) (noLoc t) 0 t.connexions) ∧ Inv ts k d := by
    intro k
    induction k with
    | zero => intro _; exact ⟨Graph.new, by simp [pure, Except.pure], ⟨rfl, rfl, fun i h => absurd h (by omega)⟩⟩
    | succ k ih =>
      intro hk
      obtain ⟨d, h1, h2⟩ := ih (by omega)
      have ht : ts[k]? = some (ts[k]'(by omega)) := List.getElem?_eq_getElem _
      obtain ⟨d', h3, h4, h5⟩ := insertTemplate_spec hr h2 ht
      refine ⟨d', ?_, h4⟩
      rw [List.take_add_one, ht, List.foldlM_append, h1, ok_bind]
      simp only [Option.toList_some, List.foldlM_cons, List.foldlM_nil, h3, ok_bind, h5, List.map_append, List.map_cons, List.map_nil]
      rfl
  obtain ⟨d, h1, _⟩ := this ts.length le_rfl
  rw [List.take_length] at h1
  exact ⟨d, _, h1, rfl⟩

/-- Cleaning a list of constraints: zero coefficients removed, empty constraints dropped. -/
def cleaned (cs : List C) : List C := (cs.map Constraint.removeZeros).filter fun c => !c.isEmpty

theorem cleanNode_constraints (n : Node) : (cleanNode n) = { n with constraints := cleaned n.constraints } := by
  unfold cleanNode cleaned
  have : ∀ (l acc : List C), l.foldl (fun acc (c : C) => let c := c.removeZeros; if c.isEmpty then acc else acc ++ [c]) acc =
      acc ++ (l.map Constraint.removeZeros).filter fun c => !c.isEmpty := by
    intro l
    induction l with
    | nil => intro acc; simp
    | cons c l ih =>
      intro acc
      simp only [List.foldl_cons, List.map_cons, List.filter_cons]
      rw [ih]
      cases h : (c.removeZeros).isEmpty <;> simp
  rw [this, List.nil_append]

/-- The finished graph. -/
structure Built (ts : List Template) (d : Graph) : Prop where
  nodes : d.nodes.length = ts.length
  adj : d.adjacency.length = ts.length
  ok : ∀ i t, ts[i]? = some t → ∃ n es cs, d.nodes[i]? = some n ∧ d.adjacency[i]? = some es ∧ numbered ts t = .ok cs ∧
    NodeOK ts i t n es (cleaned cs)

theorem buildDag_spec {ts : List Template} (hr : Resolves ts) : ∃ d, buildDag ts = .ok d ∧ Built ts d := by
  obtain ⟨d, h1, h2⟩ := inserted_spec hr
  refine ⟨{ d with nodes := d.nodes.map cleanNode }, by unfold buildDag; rw [h1, ok_bind], ⟨by simp [h2.nodes], h2.adj, fun i t ht => ?_⟩⟩
  have hi : i < ts.length := (List.getElem?_eq_some_iff.1 ht).1
  obtain ⟨n, es, cs, g1, g2, g3, g4⟩ := h2.ok i hi t ht
  refine ⟨cleanNode n, es, cs, by simp [g1], g2, g4, ?_⟩
  rw [cleanNode_constraints]
  exact ⟨g3.name, g3.parameters, g3.custom, g3.entryIn, g3.entryOut, g3.entryOutComponent, g3.signals, g3.components, g3.ints,
    g3.pubs, g3.ins, g3.outs, g3.corr, g3.ordered, g3.locals, g3.reach, g3.forb, g3.io, g3.edges, by rw [← g3.constraints]⟩

end Verif.Dag
