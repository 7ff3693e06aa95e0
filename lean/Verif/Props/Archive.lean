import Verif.ArchiveLemmas

/-!
# C96: the program archive holds each definition once, and its nodes have the numbers below `id_max`, each once

`ProgramArchive::new` merges the definitions of all files, numbers their nodes and those of the call in `component main`, and tabulates
the inputs and outputs of templates and the fields of buses.  Later passes rely on this: they keep records in vectors of length `id_max`
indexed by the numbers (`constraint_generation/src/execution_data/analysis.rs`), and take a name of a call to be that of a function or
else of a template.
-/

set_option linter.unusedVariables false

namespace Verif.Props.Archive

open Verif.Archive

theorem of_ok {fm : Nat} {pub : List String} {main : Ex} {cs : List (Nat × List Def)} {p : Program} (h : new fm pub main cs = .ok p) :
    repeats [] (defsOf cs) = [] ∧
    p = ⟨(fillE fm (mergeAll cs).1.fresh main).2, (mergeAll cs).1.functions, (mergeAll cs).1.templates, (mergeAll cs).1.buses, pub,
      (fillE fm (mergeAll cs).1.fresh main).1⟩ := by
  unfold new at h
  dsimp only at h
  split at h
  · next hr =>
    rw [mergeAll_reports, List.isEmpty_iff] at hr
    exact ⟨hr, (Except.ok.inj h).symm⟩
  · exact absurd h (by simp)

theorem nodup_of_ok {fm : Nat} {pub : List String} {main : Ex} {cs : List (Nat × List Def)} {p : Program} (h : new fm pub main cs = .ok p) :
    ((defsOf cs).map fun e => e.2.name).Nodup := ((repeats_nil _ _).1 (of_ok h).1).1

/-- **C96 (acceptance).**  The archive is built exactly when no two definitions, whatever their kinds and files, have the same name. -/
theorem C96_accept (fm : Nat) (pub : List String) (main : Ex) (cs : List (Nat × List Def)) :
    (∃ p, new fm pub main cs = .ok p) ↔ ((defsOf cs).map fun e => e.2.name).Nodup := by
  constructor
  · rintro ⟨p, h⟩
    exact nodup_of_ok h
  · intro h
    refine ⟨⟨(fillE fm (mergeAll cs).1.fresh main).2, (mergeAll cs).1.functions, (mergeAll cs).1.templates, (mergeAll cs).1.buses, pub,
      (fillE fm (mergeAll cs).1.fresh main).1⟩, ?_⟩
    unfold new
    dsimp only
    rw [if_pos]
    rw [mergeAll_reports, List.isEmpty_iff, repeats_nil]
    exact ⟨h, by simp⟩

/-- **C96 (reports).**  Otherwise there is one report for each definition whose name is defined before it, in order, with the file and the
place of that definition. -/
theorem C96_reports (fm : Nat) (pub : List String) (main : Ex) (cs : List (Nat × List Def)) (rs : List Report) :
    new fm pub main cs = .error rs ↔ rs = repeats [] (defsOf cs) ∧ rs ≠ [] := by
  unfold new
  dsimp only
  rw [mergeAll_reports]
  split
  · next h =>
    rw [List.isEmpty_iff] at h
    rw [h]
    constructor
    · intro h'
      exact absurd h' (by simp)
    · rintro ⟨h1, h2⟩
      exact absurd h1 h2
  · next h =>
    rw [List.isEmpty_iff] at h
    constructor
    · intro h'
      have := Except.error.inj h'
      exact ⟨this.symm, this ▸ h⟩
    · rintro ⟨rfl, -⟩
      rfl

/-- **C96 (order of the files).**  Whether the archive is built does not depend on the order in which the files are read. -/
theorem C96_order (fm : Nat) (pub : List String) (main : Ex) (cs cs' : List (Nat × List Def)) (h : cs.Perm cs') :
    (∃ p, new fm pub main cs = .ok p) ↔ ∃ p, new fm pub main cs' = .ok p := by
  rw [C96_accept, C96_accept]
  exact ((List.Perm.flatMap_right _ h).map _).nodup_iff

/-- **C96 (contents).**  Every definition is found in the table of its kind under its name, and in no other table: with its file, its
parameters and flags, its body unchanged but for numbers and files, every node of which carries the file of the definition.  The table of
inputs (outputs) of a template gives for a name its last declaration as an input (output) in the body, the list of declarations has all of
them in the order of the text; likewise the fields of a bus, declared outside conditionals and loops.  No other name is in a table. -/
theorem C96_contents {fm : Nat} {pub : List String} {main : Ex} {cs : List (Nat × List Def)} {p : Program}
    (h : new fm pub main cs = .ok p) :
    (∀ e ∈ defsOf cs, Entry p.functions p.templates p.buses e) ∧
    (∀ x, (∀ e ∈ defsOf cs, e.2.name ≠ x) → p.functions.get x = none ∧ p.templates.get x = none ∧ p.buses.get x = none) ∧
    p.publicInputs = pub ∧ eraseE p.main = eraseE main ∧ ∀ m ∈ metasE p.main, m.file = some fm := by
  have hi := inv_mergeAll (nodup_of_ok h)
  obtain ⟨-, rfl⟩ := of_ok h
  refine ⟨hi.entry, ?_, rfl, eraseE_fill _ _ _, (numberedE _ _ _).2.2⟩
  intro x hx
  refine taken_false.1 ?_
  rw [← Bool.not_eq_true, hi.only]
  intro hm
  obtain ⟨e, he, hn⟩ := List.mem_map.1 hm
  exact hx e he hn

/-- **C96 (kinds).**  No name is at once that of a template, of a function or of a bus. -/
theorem C96_kinds {fm : Nat} {pub : List String} {main : Ex} {cs : List (Nat × List Def)} {p : Program}
    (h : new fm pub main cs = .ok p) (x : String) :
    (p.functions.get x = none ∧ p.templates.get x = none) ∨ (p.functions.get x = none ∧ p.buses.get x = none) ∨
      (p.templates.get x = none ∧ p.buses.get x = none) := by
  obtain ⟨h1, h2, -⟩ := C96_contents h
  by_cases hx : ∀ e ∈ defsOf cs, e.2.name ≠ x
  · exact Or.inl ⟨(h2 x hx).1, (h2 x hx).2.1⟩
  · obtain ⟨e, hx⟩ := not_forall.1 hx
    obtain ⟨he, hn⟩ := Classical.not_imp.1 hx
    rw [← not_not.1 hn]
    have := h1 e he
    unfold Entry at this
    split at this
    · exact Or.inr (Or.inl ⟨this.1, this.2.1⟩)
    · exact Or.inr (Or.inr ⟨this.1, this.2.1⟩)
    · exact Or.inl ⟨this.1, this.2.1⟩

/-- **C96 (numbers).**  The nodes of all bodies and of the main call have the numbers `0, …, id_max - 1`, each exactly once. -/
theorem C96_ids {fm : Nat} {pub : List String} {main : Ex} {cs : List (Nat × List Def)} {p : Program}
    (h : new fm pub main cs = .ok p) :
    ((allMetas p.functions p.templates p.buses ++ metasE p.main).map Meta.elem).Perm (List.range p.idMax) := by
  have hi := inv_mergeAll (nodup_of_ok h)
  obtain ⟨-, rfl⟩ := of_ok h
  have := (ids_add (c := []) (by rw [List.append_nil]; exact hi.ids) (by rw [List.append_nil]; exact hi.len)
    (numberedE fm (mergeAll cs).1.fresh main)).1
  rw [List.append_nil] at this
  exact this

/-- A vector of `id_max` places has one for the number of every node of a template, and two nodes of a body never share one. -/
theorem C96_index {fm : Nat} {pub : List String} {main : Ex} {cs : List (Nat × List Def)} {p : Program}
    (h : new fm pub main cs = .ok p) (x : String) (T : TemplateData) (hT : (x, T) ∈ p.templates) :
    (∀ m ∈ metas T.body, m.elem < p.idMax) ∧ ((metas T.body).map Meta.elem).Nodup := by
  have hp := C96_ids h
  have hsub : ((metas T.body).map Meta.elem).Sublist ((allMetas p.functions p.templates p.buses ++ metasE p.main).map Meta.elem) := by
    apply List.Sublist.map
    have : (metas T.body).Sublist (p.templates.flatMap fun e => metas e.2.body) := by
      have h1 := List.sublist_flatten_of_mem (List.mem_map.2 ⟨(x, T), hT, rfl⟩ : metas T.body ∈ p.templates.map fun e => metas e.2.body)
      rwa [← List.flatMap_def] at h1
    unfold allMetas
    exact (this.trans (List.sublist_append_right _ _)).trans ((List.sublist_append_left _ _).trans (List.sublist_append_left _ _))
  constructor
  · intro m hm
    exact List.mem_range.1 (hp.subset (hsub.subset (List.mem_map_of_mem hm)))
  · exact hsub.nodup (hp.nodup_iff.2 List.nodup_range)

/-! ### A concrete program -/

def z : Meta := ⟨0, none, 7⟩

/-- `template T(n) { signal input {t} a[n]; if (n) { signal output b; } B() input c; a[0] = b + f(n) }` -/
def dT : Def := ⟨.template false true false, "T", ["n"],
  .block z [.decl z (.signal .input ["t"]) "a" [.var z "n" []],
    .cond z (.var z "n" []) (.block z [.decl z (.signal .output []) "b" []]) none,
    .decl z (.bus "B" .input []) "c" [],
    .subst z "a" [.idx (.num z 0)] (.infix z (.var z "b" []) (.call z "f" [.var z "n" []]))], 0⟩

def dF : Def := ⟨.function, "f", ["x"], .block z [.ret z (.var z "x" [])], 40⟩
def dB : Def := ⟨.bus, "B", [], .block z [.init z (.signal .intermediate []) [.decl z (.signal .intermediate ["u"]) "p" []]], 50⟩
def dG : Def := ⟨.function, "T", [], .block z [], 60⟩

def good : List (Nat × List Def) := [(3, [dT]), (5, [dF, dB])]
def bad : List (Nat × List Def) := [(3, [dT]), (5, [dG, dF]), (3, [dF])]

example : ((defsOf good).map fun e => e.2.name).Nodup := by decide

example : ¬ ((defsOf bad).map fun e => e.2.name).Nodup := by decide

example : (match new 3 ["a"] (.call z "T" [.num z 2]) good with
    | .ok p => decide (p.idMax = 22) && (metasE p.main).map Meta.elem == [20, 21] &&
      (match p.templates.get "T" with
        | some T => T.file == 3 && T.ports.inputDecls == [("a", 1), ("c", 0)] && T.ports.outputDecls == [("b", 0)] &&
          T.ports.inputs.get "c" == some ⟨some "B", 0, []⟩ && (metas T.body).map Meta.elem == [0, 1, 2, 3, 4, 5, 6, 7, 8, 13, 9, 10, 11, 12]
        | none => false) &&
      (match p.buses.get "B" with
        | some B => B.fields.decls == [("p", 0)] && (metas B.body).map Meta.elem == [17, 18, 19]
        | none => false)
    | .error _ => false) = true := by decide +kernel

example : (match new 3 [] (.num z 0) bad with
    | .ok _ => false
    | .error r => r == [⟨5, 60, "T"⟩, ⟨3, 40, "f"⟩]) = true := by decide +kernel

example : bad.Perm bad.reverse := (List.reverse_perm bad).symm

example : ∃ p, new 3 [] (.num z 0) good = .ok p := (C96_accept _ _ _ _).2 (by decide)

end Verif.Props.Archive
