import Verif.Struct

/-!
# Lemmas on the structural checks
-/

set_option linter.unusedVariables false
set_option linter.unusedSimpArgs false

namespace Verif.Struct

mutual
/-- The shape the parser and the removal of sugar give to declarations: they stand in
initialization blocks of their own type, the components of anonymous calls in one of type
`component`; in a loop an initialization block is not empty
(`program_structure/src/abstract_syntax_tree/ast_shortcuts.rs:52-95`, 97-141 and 145-180,
`parser/src/syntax_sugar_remover.rs:25-29`). -/
def Built (inLoop : Bool) : Stmt → Prop
  | .ifThen _ a => Built inLoop a
  | .ifElse _ a b => Built inLoop a ∧ Built inLoop b
  | .loop _ s => Built true s
  | .block ss => BuiltAll inLoop ss
  | .init t ss => t ≠ .anonymous ∧ ItemsBuilt t ss ∧ (inLoop = true → ∃ id x dims ds, ss = .decl id t x dims :: ds)
  | .decl _ _ _ _ => False
  | _ => True
/-- The statements of a block. -/
def BuiltAll (inLoop : Bool) : List Stmt → Prop
  | [] => True
  | s :: ss => Built inLoop s ∧ BuiltAll inLoop ss
/-- What stands in an initialization block: declarations and substitutions, also in a block. -/
def ItemBuilt (t : XType) : Stmt → Prop
  | .decl _ t' _ _ => t' = t ∨ (t = .component ∧ t' = .anonymous)
  | .block ss => ItemsBuilt t ss
  | .subst _ _ _ _ _ _ => True
  | .mult _ _ _ => True
  | .under _ _ _ => True
  | _ => False
/-- The items of an initialization block. -/
def ItemsBuilt (t : XType) : List Stmt → Prop
  | [] => True
  | s :: ss => ItemBuilt t s ∧ ItemsBuilt t ss
end

mutual
/-- The numbers of the declarations of signals, buses and components in a statement. -/
def sites : Stmt → List Nat
  | .ifThen _ a => sites a
  | .ifElse _ a b => sites a ++ sites b
  | .loop _ s => sites s
  | .init _ ss => sitesAll ss
  | .decl id t _ _ => if t.isVar then [] else [id]
  | .block ss => sitesAll ss
  | _ => []
/-- The same for a list. -/
def sitesAll : List Stmt → List Nat
  | [] => []
  | s :: ss => sites s ++ sitesAll ss
end

theorem wires_append (a b : List Ev) : wires (a ++ b) = wires a ++ wires b := by
  simp [wires, List.filterMap_append]

mutual
/-- An initialization block of variables declares no signal. -/
theorem item_var : ∀ (s : Stmt) (t : XType) (tr : List Ev), t.isVar = true → ItemBuilt t s →
    Run s tr → wires tr = []
  | .decl id t' x dims, t, tr, ht, hb, h => by
      simp only [ItemBuilt] at hb
      simp only [Run] at h
      subst h
      rcases hb with rfl | ⟨rfl, _⟩
      · simp [wires, ht]
      · simp [XType.isVar] at ht
  | .block ss, t, tr, ht, hb, h => by
      simp only [ItemBuilt] at hb
      simp only [Run] at h
      exact items_var ss t tr ht hb h
  | .subst id x acc idx op e, t, tr, ht, hb, h => by
      simp only [Run] at h
      subst h
      split <;> simp [wires]
  | .mult a b op, t, tr, ht, hb, h => by simp only [Run] at h; subst h; rfl
  | .under id op e, t, tr, ht, hb, h => by simp only [Run] at h; subst h; rfl
  | .ifThen c a, t, tr, ht, hb, h => by simp [ItemBuilt] at hb
  | .ifElse c a b, t, tr, ht, hb, h => by simp [ItemBuilt] at hb
  | .loop c s, t, tr, ht, hb, h => by simp [ItemBuilt] at hb
  | .ret e, t, tr, ht, hb, h => by simp [ItemBuilt] at hb
  | .init t' ss, t, tr, ht, hb, h => by simp [ItemBuilt] at hb
  | .ceq id a b, t, tr, ht, hb, h => by simp [ItemBuilt] at hb
  | .log es, t, tr, ht, hb, h => by simp [ItemBuilt] at hb
  | .check e, t, tr, ht, hb, h => by simp [ItemBuilt] at hb
theorem items_var : ∀ (ss : List Stmt) (t : XType) (tr : List Ev), t.isVar = true →
    ItemsBuilt t ss → RunAll ss tr → wires tr = []
  | [], t, tr, ht, hb, h => by simp only [RunAll] at h; subst h; rfl
  | s :: ss, t, tr, ht, hb, h => by
      simp only [ItemsBuilt] at hb
      simp only [RunAll] at h
      obtain ⟨a, b, rfl, h1, h2⟩ := h
      rw [wires_append, item_var s t a ht hb.1 h1, items_var ss t b ht hb.2 h2]
      rfl
end

mutual
/-- What a statement accepted inside a loop declares: no signal. -/
theorem loops_false : ∀ (s : Stmt) (tr : List Ev), Built true s → loops false s = [] → Run s tr →
    wires tr = []
  | .ifThen c a, tr, hb, hl, h => by
      simp only [Built] at hb
      simp only [loops] at hl
      simp only [Run] at h
      rcases h with h | rfl
      · exact loops_false a tr hb hl h
      · rfl
  | .ifElse c a b, tr, hb, hl, h => by
      simp only [Built] at hb
      simp only [loops, List.append_eq_nil_iff] at hl
      simp only [Run] at h
      rcases h with h | h
      · exact loops_false a tr hb.1 hl.1 h
      · exact loops_false b tr hb.2 hl.2 h
  | .loop c s, tr, hb, hl, h => by
      simp only [Built] at hb
      simp only [loops] at hl
      simp only [Run] at h
      obtain ⟨ts, rfl, hts⟩ := h
      have : ∀ ts : List (List Ev), (∀ t ∈ ts, Run s t) → wires ts.flatten = [] := by
        intro ts
        induction ts with
        | nil => intro _; rfl
        | cons t ts ih =>
          intro h
          rw [List.flatten_cons, wires_append, ih (fun q hq => h q (by simp [hq])),
            loops_false s t hb hl (h t (by simp))]
          rfl
      exact this ts hts
  | .block ss, tr, hb, hl, h => by
      simp only [Built] at hb
      simp only [loops] at hl
      simp only [Run] at h
      exact loopsAll_false ss tr hb hl h
  | .init t ss, tr, hb, hl, h => by
      simp only [Built] at hb
      simp only [Run] at h
      cases t with
      | var => exact items_var ss .var tr rfl hb.2.1 h
      | signal k => simp [loops] at hl
      | component => simp [loops] at hl
      | bus b k => simp [loops] at hl
      | anonymous => exact absurd rfl hb.1
  | .decl id t x dims, tr, hb, hl, h => by simp [Built] at hb
  | .subst id x acc idx op e, tr, hb, hl, h => by
      simp only [Run] at h
      subst h
      split <;> simp [wires]
  | .ceq id a b, tr, hb, hl, h => by simp only [Run] at h; subst h; rfl
  | .mult a b op, tr, hb, hl, h => by simp only [Run] at h; subst h; rfl
  | .under id op e, tr, hb, hl, h => by simp only [Run] at h; subst h; rfl
  | .ret e, tr, hb, hl, h => by simp only [Run] at h; subst h; rfl
  | .log es, tr, hb, hl, h => by simp only [Run] at h; subst h; rfl
  | .check e, tr, hb, hl, h => by simp only [Run] at h; subst h; rfl
theorem loopsAll_false : ∀ (ss : List Stmt) (tr : List Ev), BuiltAll true ss →
    loopsAll false ss = [] → RunAll ss tr → wires tr = []
  | [], tr, hb, hl, h => by simp only [RunAll] at h; subst h; rfl
  | s :: ss, tr, hb, hl, h => by
      simp only [BuiltAll] at hb
      simp only [loopsAll, List.append_eq_nil_iff] at hl
      simp only [RunAll] at h
      obtain ⟨a, b, rfl, h1, h2⟩ := h
      rw [wires_append, loops_false s a hb.1 hl.1 h1, loopsAll_false ss b hb.2 hl.2 h2]
      rfl
end

theorem loopsAll_nil (ss : List Stmt) (al : Bool) : loopsAll al ss = [] → ∀ s ∈ ss, loops al s = [] := by
  induction ss with
  | nil => intro _ s hs; simp at hs
  | cons a ss ih =>
    intro h s hs
    simp only [loopsAll, List.append_eq_nil_iff] at h
    rcases List.mem_cons.1 hs with rfl | hs
    · exact h.1
    · exact ih h.2 s hs

mutual
/-- What any run declares stands in the statement, in this order, when it has no loop. -/
theorem item_sites : ∀ (s : Stmt) (t : XType) (tr : List Ev), ItemBuilt t s → Run s tr →
    wires tr = sites s
  | .decl id t' x dims, t, tr, hb, h => by
      simp only [Run] at h
      subst h
      simp only [wires, sites, List.filterMap_cons, List.filterMap_nil]
      split <;> rename_i hq <;> split at hq <;> simp_all
  | .block ss, t, tr, hb, h => by
      simp only [ItemBuilt] at hb
      simp only [Run] at h
      simp only [sites]
      exact items_sites ss t tr hb h
  | .subst id x acc idx op e, t, tr, hb, h => by
      simp only [Run] at h
      subst h
      simp only [sites]
      split <;> simp [wires]
  | .mult a b op, t, tr, hb, h => by simp only [Run] at h; subst h; rfl
  | .under id op e, t, tr, hb, h => by simp only [Run] at h; subst h; rfl
  | .ifThen c a, t, tr, hb, h => by simp [ItemBuilt] at hb
  | .ifElse c a b, t, tr, hb, h => by simp [ItemBuilt] at hb
  | .loop c s, t, tr, hb, h => by simp [ItemBuilt] at hb
  | .ret e, t, tr, hb, h => by simp [ItemBuilt] at hb
  | .init t' ss, t, tr, hb, h => by simp [ItemBuilt] at hb
  | .ceq id a b, t, tr, hb, h => by simp [ItemBuilt] at hb
  | .log es, t, tr, hb, h => by simp [ItemBuilt] at hb
  | .check e, t, tr, hb, h => by simp [ItemBuilt] at hb
theorem items_sites : ∀ (ss : List Stmt) (t : XType) (tr : List Ev), ItemsBuilt t ss →
    RunAll ss tr → wires tr = sitesAll ss
  | [], t, tr, hb, h => by simp only [RunAll] at h; subst h; rfl
  | s :: ss, t, tr, hb, h => by
      simp only [ItemsBuilt] at hb
      simp only [RunAll] at h
      obtain ⟨a, b, rfl, h1, h2⟩ := h
      rw [wires_append, item_sites s t a hb.1 h1, items_sites ss t b hb.2 h2]
      rfl
end

mutual
/-- An accepted statement declares a part of its sites, each at most once. -/
theorem loops_true : ∀ (s : Stmt) (tr : List Ev), Built false s → loops true s = [] → Run s tr →
    List.Sublist (wires tr) (sites s)
  | .ifThen c a, tr, hb, hl, h => by
      simp only [Built] at hb
      simp only [loops] at hl
      simp only [Run] at h
      simp only [sites]
      rcases h with h | rfl
      · exact loops_true a tr hb hl h
      · exact List.nil_sublist _
  | .ifElse c a b, tr, hb, hl, h => by
      simp only [Built] at hb
      simp only [loops, List.append_eq_nil_iff] at hl
      simp only [Run] at h
      simp only [sites]
      rcases h with h | h
      · exact (loops_true a tr hb.1 hl.1 h).trans (List.sublist_append_left _ _)
      · exact (loops_true b tr hb.2 hl.2 h).trans (List.sublist_append_right _ _)
  | .loop c s, tr, hb, hl, h => by
      have : wires tr = [] := loops_false (.loop c s) tr (by simpa only [Built] using hb)
        (by simpa only [loops] using hl) h
      rw [this]
      exact List.nil_sublist _
  | .block ss, tr, hb, hl, h => by
      simp only [Built] at hb
      simp only [loops] at hl
      simp only [Run] at h
      simp only [sites]
      exact loopsAll_true ss tr hb hl h
  | .init t ss, tr, hb, hl, h => by
      simp only [Built] at hb
      simp only [Run] at h
      simp only [sites]
      rw [items_sites ss t tr hb.2.1 h]
  | .decl id t x dims, tr, hb, hl, h => by simp [Built] at hb
  | .subst id x acc idx op e, tr, hb, hl, h => by
      simp only [Run] at h
      subst h
      split <;> simp [wires]
  | .ceq id a b, tr, hb, hl, h => by simp only [Run] at h; subst h; exact List.nil_sublist _
  | .mult a b op, tr, hb, hl, h => by simp only [Run] at h; subst h; exact List.nil_sublist _
  | .under id op e, tr, hb, hl, h => by simp only [Run] at h; subst h; exact List.nil_sublist _
  | .ret e, tr, hb, hl, h => by simp only [Run] at h; subst h; exact List.nil_sublist _
  | .log es, tr, hb, hl, h => by simp only [Run] at h; subst h; exact List.nil_sublist _
  | .check e, tr, hb, hl, h => by simp only [Run] at h; subst h; exact List.nil_sublist _
theorem loopsAll_true : ∀ (ss : List Stmt) (tr : List Ev), BuiltAll false ss →
    loopsAll true ss = [] → RunAll ss tr → List.Sublist (wires tr) (sitesAll ss)
  | [], tr, hb, hl, h => by simp only [RunAll] at h; subst h; exact List.nil_sublist _
  | s :: ss, tr, hb, hl, h => by
      simp only [BuiltAll] at hb
      simp only [loopsAll, List.append_eq_nil_iff] at hl
      simp only [RunAll] at h
      obtain ⟨a, b, rfl, h1, h2⟩ := h
      rw [wires_append]
      exact (loops_true s a hb.1 hl.1 h1).append (loopsAll_true ss b hb.2 hl.2 h2)
end

mutual
/-- Every statement has a run. -/
theorem run_exists : ∀ s : Stmt, ∃ tr, Run s tr
  | .ifThen c a => ⟨[], by simp only [Run]; exact Or.inr trivial⟩
  | .ifElse c a b => by
      obtain ⟨tr, h⟩ := run_exists a
      exact ⟨tr, by simp only [Run]; exact Or.inl h⟩
  | .loop c s => ⟨[], by simp only [Run]; exact ⟨[], rfl, by simp⟩⟩
  | .init t ss => by
      obtain ⟨tr, h⟩ := runAll_exists ss
      exact ⟨tr, by simp only [Run]; exact h⟩
  | .block ss => by
      obtain ⟨tr, h⟩ := runAll_exists ss
      exact ⟨tr, by simp only [Run]; exact h⟩
  | .decl id t x dims => ⟨_, by simp only [Run]; rfl⟩
  | .subst id x acc idx op e => ⟨_, by simp only [Run]; rfl⟩
  | .ceq id a b => ⟨_, by simp only [Run]; rfl⟩
  | .mult a b op => ⟨_, by simp only [Run]; rfl⟩
  | .under id op e => ⟨_, by simp only [Run]; rfl⟩
  | .ret e => ⟨_, by simp only [Run]; rfl⟩
  | .log es => ⟨_, by simp only [Run]; rfl⟩
  | .check e => ⟨_, by simp only [Run]; rfl⟩
theorem runAll_exists : ∀ ss : List Stmt, ∃ tr, RunAll ss tr
  | [] => ⟨[], by simp only [RunAll]⟩
  | s :: ss => by
      obtain ⟨a, h1⟩ := run_exists s
      obtain ⟨b, h2⟩ := runAll_exists ss
      exact ⟨a ++ b, by simp only [RunAll]; exact ⟨a, b, rfl, h1, h2⟩⟩
end

mutual
/-- What is rejected inside a loop declares a signal in some run. -/
theorem loops_false_run : ∀ (s : Stmt), Built true s → loops false s ≠ [] →
    ∃ tr, Run s tr ∧ wires tr ≠ []
  | .ifThen c a, hb, hl => by
      simp only [Built] at hb
      simp only [loops] at hl
      obtain ⟨tr, h, hw⟩ := loops_false_run a hb hl
      exact ⟨tr, by simp only [Run]; exact Or.inl h, hw⟩
  | .ifElse c a b, hb, hl => by
      simp only [Built] at hb
      simp only [loops, ne_eq, List.append_eq_nil_iff, not_and_or] at hl
      rcases hl with hl | hl
      · obtain ⟨tr, h, hw⟩ := loops_false_run a hb.1 hl
        exact ⟨tr, by simp only [Run]; exact Or.inl h, hw⟩
      · obtain ⟨tr, h, hw⟩ := loops_false_run b hb.2 hl
        exact ⟨tr, by simp only [Run]; exact Or.inr h, hw⟩
  | .loop c s, hb, hl => by
      simp only [Built] at hb
      simp only [loops] at hl
      obtain ⟨tr, h, hw⟩ := loops_false_run s hb hl
      exact ⟨tr, by simp only [Run]; exact ⟨[tr], by simp, by simpa using h⟩, hw⟩
  | .block ss, hb, hl => by
      simp only [Built] at hb
      simp only [loops] at hl
      obtain ⟨tr, h, hw⟩ := loopsAll_false_run ss hb hl
      exact ⟨tr, by simp only [Run]; exact h, hw⟩
  | .init t ss, hb, hl => by
      simp only [Built] at hb
      obtain ⟨id, x, dims, ds, rfl⟩ := hb.2.2 trivial
      obtain ⟨tr, h⟩ := runAll_exists ds
      refine ⟨.declared id t :: tr, ?_, ?_⟩
      · simp only [Run, RunAll]
        exact ⟨[.declared id t], tr, rfl, rfl, h⟩
      · cases t with
        | var => simp [loops] at hl
        | anonymous => simp [loops] at hl
        | signal k => simp [wires, XType.isVar]
        | component => simp [wires, XType.isVar]
        | bus b k => simp [wires, XType.isVar]
  | .decl id t x dims, hb, hl => by simp [Built] at hb
  | .subst id x acc idx op e, hb, hl => by simp [loops] at hl
  | .ceq id a b, hb, hl => by simp [loops] at hl
  | .mult a b op, hb, hl => by simp [loops] at hl
  | .under id op e, hb, hl => by simp [loops] at hl
  | .ret e, hb, hl => by simp [loops] at hl
  | .log es, hb, hl => by simp [loops] at hl
  | .check e, hb, hl => by simp [loops] at hl
theorem loopsAll_false_run : ∀ (ss : List Stmt), BuiltAll true ss → loopsAll false ss ≠ [] →
    ∃ tr, RunAll ss tr ∧ wires tr ≠ []
  | [], hb, hl => by simp [loopsAll] at hl
  | s :: ss, hb, hl => by
      simp only [BuiltAll] at hb
      simp only [loopsAll, ne_eq, List.append_eq_nil_iff, not_and_or] at hl
      rcases hl with hl | hl
      · obtain ⟨a, h1, hw⟩ := loops_false_run s hb.1 hl
        obtain ⟨b, h2⟩ := runAll_exists ss
        refine ⟨a ++ b, by simp only [RunAll]; exact ⟨a, b, rfl, h1, h2⟩, ?_⟩
        rw [wires_append]; simp [hw]
      · obtain ⟨a, h1⟩ := run_exists s
        obtain ⟨b, h2, hw⟩ := loopsAll_false_run ss hb.2 hl
        refine ⟨a ++ b, by simp only [RunAll]; exact ⟨a, b, rfl, h1, h2⟩, ?_⟩
        rw [wires_append]; simp [hw]
end

theorem not_nodup_append {l m : List Nat} (h : ¬ l.Nodup ∨ ¬ m.Nodup) : ¬ (l ++ m).Nodup := by
  intro hn
  rw [List.nodup_append] at hn
  rcases h with h | h
  · exact h hn.1
  · exact h hn.2.1

mutual
/-- What is rejected declares a signal twice in some run. -/
theorem loops_true_run : ∀ (s : Stmt), Built false s → loops true s ≠ [] →
    ∃ tr, Run s tr ∧ ¬ (wires tr).Nodup
  | .ifThen c a, hb, hl => by
      simp only [Built] at hb
      simp only [loops] at hl
      obtain ⟨tr, h, hw⟩ := loops_true_run a hb hl
      exact ⟨tr, by simp only [Run]; exact Or.inl h, hw⟩
  | .ifElse c a b, hb, hl => by
      simp only [Built] at hb
      simp only [loops, ne_eq, List.append_eq_nil_iff, not_and_or] at hl
      rcases hl with hl | hl
      · obtain ⟨tr, h, hw⟩ := loops_true_run a hb.1 hl
        exact ⟨tr, by simp only [Run]; exact Or.inl h, hw⟩
      · obtain ⟨tr, h, hw⟩ := loops_true_run b hb.2 hl
        exact ⟨tr, by simp only [Run]; exact Or.inr h, hw⟩
  | .loop c s, hb, hl => by
      simp only [Built] at hb
      simp only [loops] at hl
      obtain ⟨tr, h, hw⟩ := loops_false_run s hb hl
      refine ⟨tr ++ tr, by simp only [Run]; exact ⟨[tr, tr], by simp, by simpa using h⟩, ?_⟩
      rw [wires_append]
      intro hn
      rw [List.nodup_append] at hn
      obtain ⟨x, hx⟩ := List.exists_mem_of_ne_nil _ hw
      exact hn.2.2 x hx x hx rfl
  | .block ss, hb, hl => by
      simp only [Built] at hb
      simp only [loops] at hl
      obtain ⟨tr, h, hw⟩ := loopsAll_true_run ss hb hl
      exact ⟨tr, by simp only [Run]; exact h, hw⟩
  | .init t ss, hb, hl => by
      cases t <;> simp [loops] at hl
  | .decl id t x dims, hb, hl => by simp [Built] at hb
  | .subst id x acc idx op e, hb, hl => by simp [loops] at hl
  | .ceq id a b, hb, hl => by simp [loops] at hl
  | .mult a b op, hb, hl => by simp [loops] at hl
  | .under id op e, hb, hl => by simp [loops] at hl
  | .ret e, hb, hl => by simp [loops] at hl
  | .log es, hb, hl => by simp [loops] at hl
  | .check e, hb, hl => by simp [loops] at hl
theorem loopsAll_true_run : ∀ (ss : List Stmt), BuiltAll false ss → loopsAll true ss ≠ [] →
    ∃ tr, RunAll ss tr ∧ ¬ (wires tr).Nodup
  | [], hb, hl => by simp [loopsAll] at hl
  | s :: ss, hb, hl => by
      simp only [BuiltAll] at hb
      simp only [loopsAll, ne_eq, List.append_eq_nil_iff, not_and_or] at hl
      rcases hl with hl | hl
      · obtain ⟨a, h1, hw⟩ := loops_true_run s hb.1 hl
        obtain ⟨b, h2⟩ := runAll_exists ss
        refine ⟨a ++ b, by simp only [RunAll]; exact ⟨a, b, rfl, h1, h2⟩, ?_⟩
        rw [wires_append]; exact not_nodup_append (Or.inl hw)
      · obtain ⟨a, h1⟩ := run_exists s
        obtain ⟨b, h2, hw⟩ := loopsAll_true_run ss hb.2 hl
        refine ⟨a ++ b, by simp only [RunAll]; exact ⟨a, b, rfl, h1, h2⟩, ?_⟩
        rw [wires_append]; exact not_nodup_append (Or.inr hw)
end

/-! ## Custom templates -/

/-- What a report of a custom template says about a run. -/
def Report.ev (r : Report) (e : Ev) : Prop :=
  match r, e with
  | .component i, .declared j t => i = j ∧ t.isComponent = true
  | .constraint i, .constrained j => i = j
  | .intermediate i, .declared j t =>
      i = j ∧ (t = .signal .intermediate ∨ ∃ b, t = .bus b .intermediate)
  | _, _ => False

/-- What a custom template must not do. -/
def Ev.bad : Ev → Prop
  | .declared _ t => t.isComponent = true
  | .constrained _ => True

/-- What it should not do. -/
def Ev.doubtful : Ev → Prop
  | .declared _ t => t = .signal .intermediate ∨ ∃ b, t = .bus b .intermediate
  | .constrained _ => False

mutual
/-- What a run does that it must not, or should not, is reported. -/
theorem gate_sound : ∀ (s : Stmt) (tr : List Ev), Run s tr → ∀ e ∈ tr,
    (e.bad → ∃ r ∈ (gate s).1, r.ev e) ∧ (e.doubtful → ∃ r ∈ (gate s).2, r.ev e)
  | .ifThen c a, tr, h, e, he => by
      simp only [Run] at h
      rcases h with h | rfl
      · simpa only [gate] using gate_sound a tr h e he
      · simp at he
  | .ifElse c a b, tr, h, e, he => by
      simp only [Run] at h
      simp only [gate, both]
      rcases h with h | h
      · obtain ⟨k1, k2⟩ := gate_sound a tr h e he
        exact ⟨fun hb => (k1 hb).imp fun r hr => ⟨List.mem_append_left _ hr.1, hr.2⟩,
          fun hb => (k2 hb).imp fun r hr => ⟨List.mem_append_left _ hr.1, hr.2⟩⟩
      · obtain ⟨k1, k2⟩ := gate_sound b tr h e he
        exact ⟨fun hb => (k1 hb).imp fun r hr => ⟨List.mem_append_right _ hr.1, hr.2⟩,
          fun hb => (k2 hb).imp fun r hr => ⟨List.mem_append_right _ hr.1, hr.2⟩⟩
  | .loop c s, tr, h, e, he => by
      simp only [Run] at h
      obtain ⟨ts, rfl, hts⟩ := h
      obtain ⟨t, ht, het⟩ := List.mem_flatten.1 he
      simpa only [gate] using gate_sound s t (hts t ht) e het
  | .init t ss, tr, h, e, he => by
      simp only [Run] at h
      simpa only [gate] using gateAll_sound ss tr h e he
  | .block ss, tr, h, e, he => by
      simp only [Run] at h
      simpa only [gate] using gateAll_sound ss tr h e he
  | .decl id t x dims, tr, h, e, he => by
      simp only [Run] at h
      subst h
      rw [List.mem_singleton] at he
      subst he
      cases t with
      | var => simp [Ev.bad, Ev.doubtful, XType.isComponent]
      | signal k => cases k <;> simp [Ev.bad, Ev.doubtful, XType.isComponent, gate, Report.ev]
      | component => simp [Ev.bad, Ev.doubtful, XType.isComponent, gate, Report.ev]
      | anonymous => simp [Ev.bad, Ev.doubtful, XType.isComponent, gate, Report.ev]
      | bus b k => cases k <;> simp [Ev.bad, Ev.doubtful, XType.isComponent, gate, Report.ev]
  | .subst id x acc idx op e', tr, h, e, he => by
      simp only [Run] at h
      subst h
      by_cases ho : op = .constraint
      · subst ho
        simp only [if_true, List.mem_singleton] at he
        subst he
        simp [Ev.doubtful, gate, Report.ev]
      · simp [ho] at he
  | .ceq id a b, tr, h, e, he => by
      simp only [Run] at h
      subst h
      rw [List.mem_singleton] at he
      subst he
      simp [Ev.doubtful, gate, Report.ev]
  | .mult a b op, tr, h, e, he => by simp only [Run] at h; subst h; simp at he
  | .under id op e', tr, h, e, he => by simp only [Run] at h; subst h; simp at he
  | .ret e', tr, h, e, he => by simp only [Run] at h; subst h; simp at he
  | .log es, tr, h, e, he => by simp only [Run] at h; subst h; simp at he
  | .check e', tr, h, e, he => by simp only [Run] at h; subst h; simp at he
theorem gateAll_sound : ∀ (ss : List Stmt) (tr : List Ev), RunAll ss tr → ∀ e ∈ tr,
    (e.bad → ∃ r ∈ (gateAll ss).1, r.ev e) ∧ (e.doubtful → ∃ r ∈ (gateAll ss).2, r.ev e)
  | [], tr, h, e, he => by simp only [RunAll] at h; subst h; simp at he
  | s :: ss, tr, h, e, he => by
      simp only [RunAll] at h
      obtain ⟨a, b, rfl, h1, h2⟩ := h
      simp only [gateAll, both]
      rcases List.mem_append.1 he with he | he
      · obtain ⟨k1, k2⟩ := gate_sound s a h1 e he
        exact ⟨fun hb => (k1 hb).imp fun r hr => ⟨List.mem_append_left _ hr.1, hr.2⟩,
          fun hb => (k2 hb).imp fun r hr => ⟨List.mem_append_left _ hr.1, hr.2⟩⟩
      · obtain ⟨k1, k2⟩ := gateAll_sound ss b h2 e he
        exact ⟨fun hb => (k1 hb).imp fun r hr => ⟨List.mem_append_right _ hr.1, hr.2⟩,
          fun hb => (k2 hb).imp fun r hr => ⟨List.mem_append_right _ hr.1, hr.2⟩⟩
end

mutual
/-- No `_ <== e`. -/
def NoUnder : Stmt → Prop
  | .ifThen _ a => NoUnder a
  | .ifElse _ a b => NoUnder a ∧ NoUnder b
  | .loop _ s => NoUnder s
  | .init _ ss => NoUnderAll ss
  | .block ss => NoUnderAll ss
  | .under _ op _ => op ≠ .constraint
  | _ => True
/-- The same for a list. -/
def NoUnderAll : List Stmt → Prop
  | [] => True
  | s :: ss => NoUnder s ∧ NoUnderAll ss
end

mutual
/-- What is reported is done by some run. -/
theorem gate_exact : ∀ (s : Stmt), NoUnder s → ∀ r, r ∈ (gate s).1 ∨ r ∈ (gate s).2 →
    ∃ tr, Run s tr ∧ ∃ e ∈ tr, r.ev e
  | .ifThen c a, hn, r, hr => by
      simp only [NoUnder] at hn
      simp only [gate] at hr
      obtain ⟨tr, h, he⟩ := gate_exact a hn r hr
      exact ⟨tr, by simp only [Run]; exact Or.inl h, he⟩
  | .ifElse c a b, hn, r, hr => by
      simp only [NoUnder] at hn
      simp only [gate, both, List.mem_append] at hr
      have : (r ∈ (gate a).1 ∨ r ∈ (gate a).2) ∨ (r ∈ (gate b).1 ∨ r ∈ (gate b).2) := by tauto
      rcases this with hr | hr
      · obtain ⟨tr, h, he⟩ := gate_exact a hn.1 r hr
        exact ⟨tr, by simp only [Run]; exact Or.inl h, he⟩
      · obtain ⟨tr, h, he⟩ := gate_exact b hn.2 r hr
        exact ⟨tr, by simp only [Run]; exact Or.inr h, he⟩
  | .loop c s, hn, r, hr => by
      simp only [NoUnder] at hn
      simp only [gate] at hr
      obtain ⟨tr, h, he⟩ := gate_exact s hn r hr
      exact ⟨tr, by simp only [Run]; exact ⟨[tr], by simp, by simpa using h⟩, he⟩
  | .init t ss, hn, r, hr => by
      simp only [NoUnder] at hn
      simp only [gate] at hr
      obtain ⟨tr, h, he⟩ := gateAll_exact ss hn r hr
      exact ⟨tr, by simp only [Run]; exact h, he⟩
  | .block ss, hn, r, hr => by
      simp only [NoUnder] at hn
      simp only [gate] at hr
      obtain ⟨tr, h, he⟩ := gateAll_exact ss hn r hr
      exact ⟨tr, by simp only [Run]; exact h, he⟩
  | .decl id t x dims, hn, r, hr => by
      refine ⟨[.declared id t], by simp only [Run], .declared id t, by simp, ?_⟩
      cases t with
      | var => simp [gate] at hr
      | signal k => cases k <;> simp [gate] at hr <;> subst hr <;> simp [Report.ev]
      | component => simp [gate] at hr; subst hr; simp [Report.ev, XType.isComponent]
      | anonymous => simp [gate] at hr; subst hr; simp [Report.ev, XType.isComponent]
      | bus b k => cases k <;> simp [gate] at hr <;> subst hr <;> simp [Report.ev]
  | .subst id x acc idx op e', hn, r, hr => by
      by_cases ho : op = .constraint
      · subst ho
        simp [gate] at hr
        subst hr
        exact ⟨[.constrained id], by simp only [Run, if_true], .constrained id, by simp, rfl⟩
      · simp [gate, ho] at hr
  | .ceq id a b, hn, r, hr => by
      simp [gate] at hr
      subst hr
      exact ⟨[.constrained id], by simp only [Run], .constrained id, by simp, rfl⟩
  | .under id op e', hn, r, hr => by
      simp only [NoUnder] at hn
      simp [gate, hn] at hr
  | .mult a b op, hn, r, hr => by simp [gate] at hr
  | .ret e', hn, r, hr => by simp [gate] at hr
  | .log es, hn, r, hr => by simp [gate] at hr
  | .check e', hn, r, hr => by simp [gate] at hr
theorem gateAll_exact : ∀ (ss : List Stmt), NoUnderAll ss →
    ∀ r, r ∈ (gateAll ss).1 ∨ r ∈ (gateAll ss).2 → ∃ tr, RunAll ss tr ∧ ∃ e ∈ tr, r.ev e
  | [], hn, r, hr => by simp [gateAll] at hr
  | s :: ss, hn, r, hr => by
      simp only [NoUnderAll] at hn
      simp only [gateAll, both, List.mem_append] at hr
      have : (r ∈ (gate s).1 ∨ r ∈ (gate s).2) ∨ (r ∈ (gateAll ss).1 ∨ r ∈ (gateAll ss).2) := by
        tauto
      rcases this with hr | hr
      · obtain ⟨a, h1, e, he, hre⟩ := gate_exact s hn.1 r hr
        obtain ⟨b, h2⟩ := runAll_exists ss
        exact ⟨a ++ b, by simp only [RunAll]; exact ⟨a, b, rfl, h1, h2⟩, e, by simp [he], hre⟩
      · obtain ⟨a, h1⟩ := run_exists s
        obtain ⟨b, h2, e, he, hre⟩ := gateAll_exact ss hn.2 r hr
        exact ⟨a ++ b, by simp only [RunAll]; exact ⟨a, b, rfl, h1, h2⟩, e, by simp [he], hre⟩
end

/-! ## Buses -/

theorem plus_zero (a b : Count) : Count.plus a b = some 0 ↔ a = some 0 ∧ b = some 0 := by
  cases a with
  | none => simp [Count.plus]
  | some n =>
    cases b with
    | none => simp [Count.plus]
    | some m =>
      simp only [Count.plus, Option.bind_some, Option.map_some, Option.some.injEq]
      omega

theorem namedAccess_zero (acc : List (Option String)) :
    namedAccess acc = 0 ↔ ∀ a ∈ acc, a = none := by
  unfold namedAccess
  rw [List.length_eq_zero_iff, List.filter_eq_nil_iff]
  constructor
  · intro h a ha
    have := h a ha
    cases a with
    | none => rfl
    | some x => simp at this
  · intro h a ha
    rw [h a ha]
    simp

mutual
theorem busEx_zero (fs : List String) : ∀ e, busEx fs e = some 0 ↔ Evaluates fs e
  | .num n => by simp [busEx, Evaluates]
  | .var x acc idx => by
      simp only [busEx, Evaluates, Option.map_eq_some_iff]
      rw [← busExs_zero fs idx, ← namedAccess_zero]
      constructor
      · rintro ⟨n, h1, h2⟩
        have : n = 0 ∧ namedAccess acc = 0 := by omega
        exact ⟨this.2, by rw [h1, this.1]⟩
      · rintro ⟨h1, h2⟩
        exact ⟨0, h2, by omega⟩
  | .node es => by simp only [busEx, Evaluates]; exact busExs_zero fs es
  | .uniform v d => by
      simp only [busEx, Evaluates]
      rw [plus_zero, busEx_zero fs v, busEx_zero fs d]
  | .call f args => by
      simp only [busEx, Evaluates, Option.map_eq_some_iff]
      rw [← busExs_zero fs args]
      constructor
      · rintro ⟨n, h1, h2⟩
        by_cases hf : f ∈ fs
        · simp [hf] at h2
          exact ⟨hf, by rw [h1, h2]⟩
        · simp [hf] at h2
      · rintro ⟨h1, h2⟩
        exact ⟨0, h2, by simp [h1]⟩
  | .busCall f args => by simp [busEx, Evaluates]
  | .sugar => by simp [busEx, Evaluates]
theorem busExs_zero (fs : List String) : ∀ es, busExs fs es = some 0 ↔ EvaluatesAll fs es
  | [] => by simp [busExs, EvaluatesAll]
  | e :: es => by
      simp only [busExs, EvaluatesAll]
      rw [plus_zero, busEx_zero fs e, busExs_zero fs es]
end

theorem isBusCall_iff : ∀ e, isBusCall e = true ↔ BusValue e
  | .busCall f args => by simp only [isBusCall, true_iff]; exact .call f args
  | .uniform v d => by
      simp only [isBusCall]
      rw [isBusCall_iff v]
      exact ⟨fun h => .array v d h, fun h => by cases h; assumption⟩
  | .num n => by simp only [isBusCall, Bool.false_eq_true, false_iff]; rintro ⟨⟩
  | .var x acc idx => by simp only [isBusCall, Bool.false_eq_true, false_iff]; rintro ⟨⟩
  | .node es => by simp only [isBusCall, Bool.false_eq_true, false_iff]; rintro ⟨⟩
  | .call f args => by simp only [isBusCall, Bool.false_eq_true, false_iff]; rintro ⟨⟩
  | .sugar => by simp only [isBusCall, Bool.false_eq_true, false_iff]; rintro ⟨⟩

mutual
/-- The values of `_ <== e` are no buses: the grammar makes `BusCall` only in declarations. -/
def NoBusUnder : Stmt → Prop
  | .init _ ss => NoBusUnderAll ss
  | .block ss => NoBusUnderAll ss
  | .under _ _ e => ¬ BusValue e
  | _ => True
/-- The same for a list. -/
def NoBusUnderAll : List Stmt → Prop
  | [] => True
  | s :: ss => NoBusUnder s ∧ NoBusUnderAll ss
end

mutual
/-- Declared in a bus: neither input nor output. -/
def Inner : Stmt → Prop
  | .init _ ss => InnerAll ss
  | .block ss => InnerAll ss
  | .decl _ t _ _ => t = .signal .intermediate ∨ ∃ b, t = .bus b .intermediate
  | _ => True
/-- The same for a list. -/
def InnerAll : List Stmt → Prop
  | [] => True
  | s :: ss => Inner s ∧ InnerAll ss
end

mutual
theorem bus_zero (fs : List String) : ∀ (s : Stmt), NoBusUnder s →
    (bus fs s = some 0 ↔ Inner s ∧ ∃ r, BusRun fs s r) ∧ (bus fs s = some 0 → BusRun fs s (fields s))
  | .mult a b op, hn => by simp [bus, BusRun]
  | .ifThen c a, hn => by simp [bus, BusRun]
  | .ifElse c a b, hn => by simp [bus, BusRun]
  | .loop c a, hn => by simp [bus, BusRun]
  | .ceq id a b, hn => by simp [bus, BusRun]
  | .log es, hn => by simp [bus, BusRun]
  | .check e, hn => by simp [bus, BusRun]
  | .ret e, hn => by simp [bus, BusRun]
  | .under id op e, hn => by
      simp only [NoBusUnder] at hn
      rw [← isBusCall_iff] at hn
      simp [bus, BusRun, hn]
  | .block ss, hn => by
      simp only [NoBusUnder] at hn
      simp only [bus, BusRun, Inner, fields]
      exact busAll_zero fs ss hn
  | .init t ss, hn => by
      simp only [NoBusUnder] at hn
      simp only [bus, BusRun, Inner, fields]
      exact busAll_zero fs ss hn
  | .decl id t x dims, hn => by
      have hz := busExs_zero fs dims
      cases t with
      | var => simp [bus, Inner]
      | component => simp [bus, Inner]
      | anonymous => simp [bus, Inner]
      | signal k =>
        cases k with
        | input => simp [bus, Inner]
        | output => simp [bus, Inner]
        | intermediate =>
          simp only [bus, if_true, Inner, BusRun, fields]
          rw [hz]
          refine ⟨⟨fun h => ⟨Or.inl trivial, _, h, Or.inl ⟨.intermediate, by trivial, rfl⟩⟩,
            fun ⟨_, _, h, _⟩ => h⟩, fun h => ⟨h, Or.inl ⟨.intermediate, by trivial, by trivial⟩⟩⟩
      | bus b k =>
        cases k with
        | input => simp [bus, Inner]
        | output => simp [bus, Inner]
        | intermediate =>
          simp only [bus, if_true, Inner, BusRun, fields]
          rw [hz]
          refine ⟨⟨fun h => ⟨Or.inr ⟨b, rfl⟩, _, h, Or.inr ⟨b, _, rfl, rfl⟩⟩,
            fun ⟨_, _, h, _⟩ => h⟩, fun h => ⟨h, Or.inr ⟨b, _, rfl, rfl⟩⟩⟩
  | .subst id x acc idx op e, hn => by
      simp only [bus, Inner, true_and, BusRun, fields, Option.map_eq_some_iff]
      have hz := busExs_zero fs idx
      have hb := isBusCall_iff e
      have ha := namedAccess_zero acc
      have key : (∃ a, busExs fs idx = some a ∧ a + namedAccess acc +
          (if isBusCall e = true then 0 else 1) = 0) ↔
          (∀ a ∈ acc, a = none) ∧ EvaluatesAll fs idx ∧ BusValue e := by
        constructor
        · rintro ⟨n, h1, h2⟩
          by_cases hq : isBusCall e = true
          · simp [hq] at h2
            exact ⟨ha.1 h2.2, hz.1 (by rw [h1, h2.1]), hb.1 hq⟩
          · simp [hq] at h2
        · rintro ⟨h1, h2, h3⟩
          exact ⟨0, hz.2 h2, by rw [ha.2 h1, hb.2 h3]; rfl⟩
      refine ⟨?_, ?_⟩
      · rw [key]
        exact ⟨fun ⟨a, b, c⟩ => ⟨[], a, b, c, rfl⟩, fun ⟨_, a, b, c, _⟩ => ⟨a, b, c⟩⟩
      · intro h
        obtain ⟨a, b, c⟩ := key.1 h
        exact ⟨a, b, c, trivial⟩
theorem busAll_zero (fs : List String) : ∀ (ss : List Stmt), NoBusUnderAll ss →
    (busAll fs ss = some 0 ↔ InnerAll ss ∧ ∃ r, BusRunAll fs ss r) ∧
    (busAll fs ss = some 0 → BusRunAll fs ss (fieldsAll ss))
  | [], hn => by simp [busAll, InnerAll, BusRunAll, fieldsAll]
  | s :: ss, hn => by
      simp only [NoBusUnderAll] at hn
      obtain ⟨a1, a2⟩ := bus_zero fs s hn.1
      obtain ⟨b1, b2⟩ := busAll_zero fs ss hn.2
      simp only [busAll, InnerAll, BusRunAll, fieldsAll]
      rw [plus_zero, a1, b1]
      refine ⟨⟨?_, ?_⟩, ?_⟩
      · rintro ⟨⟨h1, r1, h2⟩, h3, r2, h4⟩
        exact ⟨⟨h1, h3⟩, r1 ++ r2, r1, r2, rfl, h2, h4⟩
      · rintro ⟨⟨h1, h3⟩, r, r1, r2, _, h2, h4⟩
        exact ⟨⟨h1, r1, h2⟩, h3, r2, h4⟩
      · rintro ⟨h1, h2⟩
        exact ⟨_, _, rfl, a2 (a1.2 h1), b2 (b1.2 h2)⟩
end

mutual
/-- A bus has at most one outcome. -/
theorem busRun_unique (fs : List String) : ∀ (s : Stmt) (r q : List Field), BusRun fs s r →
    BusRun fs s q → r = q
  | .decl id t x dims, r, q, h, k => by
      simp only [BusRun] at h k
      obtain ⟨_, h⟩ := h
      obtain ⟨_, k⟩ := k
      rcases h with ⟨k1, h1, rfl⟩ | ⟨b1, k1, h1, rfl⟩ <;>
        rcases k with ⟨k2, h2, rfl⟩ | ⟨b2, k2, h2, rfl⟩ <;> rw [h1] at h2 <;> cases h2 <;> rfl
  | .subst id x acc idx op e, r, q, h, k => by
      simp only [BusRun] at h k
      rw [h.2.2.2, k.2.2.2]
  | .block ss, r, q, h, k => by
      simp only [BusRun] at h k
      exact busRunAll_unique fs ss r q h k
  | .init t ss, r, q, h, k => by
      simp only [BusRun] at h k
      exact busRunAll_unique fs ss r q h k
  | .mult a b op, r, q, h, k => by simp [BusRun] at h
  | .ifThen c a, r, q, h, k => by simp [BusRun] at h
  | .ifElse c a b, r, q, h, k => by simp [BusRun] at h
  | .loop c a, r, q, h, k => by simp [BusRun] at h
  | .ceq id a b, r, q, h, k => by simp [BusRun] at h
  | .log es, r, q, h, k => by simp [BusRun] at h
  | .check e, r, q, h, k => by simp [BusRun] at h
  | .ret e, r, q, h, k => by simp [BusRun] at h
  | .under id op e, r, q, h, k => by simp [BusRun] at h
theorem busRunAll_unique (fs : List String) : ∀ (ss : List Stmt) (r q : List Field),
    BusRunAll fs ss r → BusRunAll fs ss q → r = q
  | [], r, q, h, k => by simp only [BusRunAll] at h k; rw [h, k]
  | s :: ss, r, q, h, k => by
      simp only [BusRunAll] at h k
      obtain ⟨a, b, rfl, h1, h2⟩ := h
      obtain ⟨c, d, rfl, k1, k2⟩ := k
      rw [busRun_unique fs s a c h1 k1, busRunAll_unique fs ss b d h2 k2]
end

mutual
/-- No tuple and no anonymous component where the check of buses looks. -/
def Plain : Stmt → Prop
  | .mult _ _ _ => False
  | .init _ ss => PlainAll ss
  | .block ss => PlainAll ss
  | .decl _ _ _ dims => PlainExs dims
  | .subst _ _ _ idx _ _ => PlainExs idx
  | _ => True
/-- The same for a list. -/
def PlainAll : List Stmt → Prop
  | [] => True
  | s :: ss => Plain s ∧ PlainAll ss
/-- The same for an expression. -/
def PlainEx : Ex → Prop
  | .num _ => True
  | .var _ _ idx => PlainExs idx
  | .node es => PlainExs es
  | .uniform v d => PlainEx v ∧ PlainEx d
  | .call _ args => PlainExs args
  | .busCall _ _ => True
  | .sugar => False
/-- The same for expressions. -/
def PlainExs : List Ex → Prop
  | [] => True
  | e :: es => PlainEx e ∧ PlainExs es
end

theorem plus_some {a b : Count} (ha : ∃ n, a = some n) (hb : ∃ n, b = some n) :
    ∃ n, Count.plus a b = some n := by
  obtain ⟨n, rfl⟩ := ha
  obtain ⟨m, rfl⟩ := hb
  exact ⟨n + m, rfl⟩

mutual
theorem busEx_total (fs : List String) : ∀ e, PlainEx e → ∃ n, busEx fs e = some n
  | .num n, h => ⟨0, by simp only [busEx]⟩
  | .var x acc idx, h => by
      simp only [PlainEx] at h
      obtain ⟨n, hn⟩ := busExs_total fs idx h
      exact ⟨_, by simp only [busEx, hn, Option.map_some]; rfl⟩
  | .node es, h => by
      simp only [PlainEx] at h
      simp only [busEx]
      exact busExs_total fs es h
  | .uniform v d, h => by
      simp only [PlainEx] at h
      simp only [busEx]
      exact plus_some (busEx_total fs v h.1) (busEx_total fs d h.2)
  | .call f args, h => by
      simp only [PlainEx] at h
      obtain ⟨n, hn⟩ := busExs_total fs args h
      exact ⟨_, by simp only [busEx, hn, Option.map_some]; rfl⟩
  | .busCall f args, h => ⟨1, by simp only [busEx]⟩
  | .sugar, h => by simp [PlainEx] at h
theorem busExs_total (fs : List String) : ∀ es, PlainExs es → ∃ n, busExs fs es = some n
  | [], h => ⟨0, by simp only [busExs]⟩
  | e :: es, h => by
      simp only [PlainExs] at h
      simp only [busExs]
      exact plus_some (busEx_total fs e h.1) (busExs_total fs es h.2)
end

mutual
theorem bus_total (fs : List String) : ∀ s, Plain s → ∃ n, bus fs s = some n
  | .mult a b op, h => by simp [Plain] at h
  | .init t ss, h => by
      simp only [Plain] at h
      simp only [bus]
      exact busAll_total fs ss h
  | .block ss, h => by
      simp only [Plain] at h
      simp only [bus]
      exact busAll_total fs ss h
  | .decl id t x dims, h => by
      simp only [Plain] at h
      obtain ⟨n, hn⟩ := busExs_total fs dims h
      cases t with
      | var => exact ⟨1, by simp only [bus]⟩
      | component => exact ⟨1, by simp only [bus]⟩
      | anonymous => exact ⟨1, by simp only [bus]⟩
      | signal k => by_cases hk : k = .intermediate <;> simp [bus, hk, hn]
      | bus b k => by_cases hk : k = .intermediate <;> simp [bus, hk, hn]
  | .subst id x acc idx op e, h => by
      simp only [Plain] at h
      obtain ⟨n, hn⟩ := busExs_total fs idx h
      exact ⟨_, by simp only [bus, hn, Option.map_some]; rfl⟩
  | .ifThen c a, h => ⟨1, by simp only [bus]⟩
  | .ifElse c a b, h => ⟨1, by simp only [bus]⟩
  | .loop c a, h => ⟨1, by simp only [bus]⟩
  | .ceq id a b, h => ⟨1, by simp only [bus]⟩
  | .log es, h => ⟨1, by simp only [bus]⟩
  | .check e, h => ⟨1, by simp only [bus]⟩
  | .ret e, h => ⟨1, by simp only [bus]⟩
  | .under id op e, h => ⟨_, by simp only [bus]; rfl⟩
theorem busAll_total (fs : List String) : ∀ ss, PlainAll ss → ∃ n, busAll fs ss = some n
  | [], h => ⟨0, by simp only [busAll]⟩
  | s :: ss, h => by
      simp only [PlainAll] at h
      simp only [busAll]
      exact plus_some (bus_total fs s h.1) (busAll_total fs ss h.2)
end

end Verif.Struct
