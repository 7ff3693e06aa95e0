import Verif.Stages

/-!
# C103: what the type analysis accepts has passed every analysis, and holds what is reached
-/

namespace Verif.Props.Stages
open Verif.Stages

variable {F T B X R : Type} {P : Passes F T B X R}

/-- The sets of names are the names of the tables, and a table has a name once: what `ProgramArchive::new` gives (C96). -/
structure Keyed (A : Archive F T B X) : Prop where
  functions : ∀ n, n ∈ A.functionKeys ↔ ∃ d, (n, d) ∈ A.functions
  templates : ∀ n, n ∈ A.templateKeys ↔ ∃ d, (n, d) ∈ A.templates
  buses : ∀ n, n ∈ A.busKeys ↔ ∃ d, (n, d) ∈ A.buses
  once : (A.templates.map (·.1)).Nodup

theorem mapTable_eq {D : Type} (f : D → D × List R) (l : List (String × D)) :
    mapTable f l = (l.map fun e => (e.1, (f e.2).1), l.flatMap fun e => (f e.2).2) := by
  induction l with
  | nil => rfl
  | cons e l ih => obtain ⟨n, d⟩ := e; simp [mapTable, ih]

/-- What stays of a table or a set of names after the names of `l` have been gone through. -/
def stays (l reached : List String) (n : String) : Bool := !l.contains n || reached.contains n

theorem filter_step {α : Type} (name : α → String) (n : String) (l reached : List String) (h : reached.contains n = false)
    (k : List α) : (k.filter (fun e => name e ≠ n)).filter (fun e => stays l reached (name e)) =
      k.filter (fun e => stays (n :: l) reached (name e)) := by
  rw [List.filter_filter]
  refine List.filter_congr fun e _ => ?_
  by_cases he : name e = n
  · have : n ∉ reached := by simpa using h
    simp [stays, he, this]
  · simp [stays, he]

theorem filter_keep {α : Type} (name : α → String) (n : String) (l reached : List String) (h : reached.contains n = true)
    (k : List α) : k.filter (fun e => stays l reached (name e)) = k.filter (fun e => stays (n :: l) reached (name e)) := by
  refine List.filter_congr fun e _ => ?_
  by_cases he : name e = n
  · have : n ∈ reached := by simpa using h
    simp [stays, he, this]
  · simp [stays, he]

theorem filter_nil {α : Type} (name : α → String) (reached : List String) (k : List α) :
    k.filter (fun e => stays [] reached (name e)) = k := by simp [stays]

theorem loopT (reached l : List String) (A : Archive F T B X) : removeLoop removeTemplate reached l A =
    { A with templateKeys := A.templateKeys.filter (fun n => stays l reached n),
             templates := A.templates.filter (fun e => stays l reached e.1) } := by
  induction l generalizing A with
  | nil => simp only [removeLoop]; rw [filter_nil (fun n => n), filter_nil (fun e : String × T => e.1)]
  | cons n l ih =>
    rw [removeLoop, ih]
    cases h : reached.contains n with
    | true => rw [if_pos rfl, filter_keep (fun n => n) n l reached h, filter_keep (fun e : String × T => e.1) n l reached h]
    | false =>
      rw [if_neg (by simp)]
      simp only [removeTemplate]
      rw [filter_step (fun n => n) n l reached h, filter_step (fun e : String × T => e.1) n l reached h]

theorem loopF (reached l : List String) (A : Archive F T B X) : removeLoop removeFunction reached l A =
    { A with functionKeys := A.functionKeys.filter (fun n => stays l reached n),
             functions := A.functions.filter (fun e => stays l reached e.1) } := by
  induction l generalizing A with
  | nil => simp only [removeLoop]; rw [filter_nil (fun n => n), filter_nil (fun e : String × F => e.1)]
  | cons n l ih =>
    rw [removeLoop, ih]
    cases h : reached.contains n with
    | true => rw [if_pos rfl, filter_keep (fun n => n) n l reached h, filter_keep (fun e : String × F => e.1) n l reached h]
    | false =>
      rw [if_neg (by simp)]
      simp only [removeFunction]
      rw [filter_step (fun n => n) n l reached h, filter_step (fun e : String × F => e.1) n l reached h]

theorem loopB (reached l : List String) (A : Archive F T B X) : removeLoop removeBus reached l A =
    { A with busKeys := A.busKeys.filter (fun n => stays l reached n),
             buses := A.buses.filter (fun e => stays l reached e.1) } := by
  induction l generalizing A with
  | nil => simp only [removeLoop]; rw [filter_nil (fun n => n), filter_nil (fun e : String × B => e.1)]
  | cons n l ih =>
    rw [removeLoop, ih]
    cases h : reached.contains n with
    | true => rw [if_pos rfl, filter_keep (fun n => n) n l reached h, filter_keep (fun e : String × B => e.1) n l reached h]
    | false =>
      rw [if_neg (by simp)]
      simp only [removeBus]
      rw [filter_step (fun n => n) n l reached h, filter_step (fun e : String × B => e.1) n l reached h]

theorem prune_eq (reached : List String) (A : Archive F T B X) : prune reached A =
    { functions := A.functions.filter (fun e => stays A.functionKeys reached e.1),
      templates := A.templates.filter (fun e => stays A.templateKeys reached e.1),
      buses := A.buses.filter (fun e => stays A.busKeys reached e.1),
      functionKeys := A.functionKeys.filter (fun n => stays A.functionKeys reached n),
      templateKeys := A.templateKeys.filter (fun n => stays A.templateKeys reached n),
      busKeys := A.busKeys.filter (fun n => stays A.busKeys reached n),
      rest := A.rest } := by
  unfold prune
  dsimp only
  rw [loopF]
  dsimp only
  rw [loopT]
  dsimp only
  rw [loopB]

theorem mem_table {D : Type} {keys reached : List String} {l : List (String × D)} (h : ∀ n, n ∈ keys ↔ ∃ d, (n, d) ∈ l) (n : String) (d : D) :
    (n, d) ∈ l.filter (fun e => stays keys reached e.1) ↔ (n, d) ∈ l ∧ n ∈ reached := by
  rw [List.mem_filter]
  constructor
  · rintro ⟨m, s⟩
    refine ⟨m, ?_⟩
    have := (h n).2 ⟨d, m⟩
    simpa [stays, this] using s
  · rintro ⟨m, s⟩
    exact ⟨m, by simp [stays, s]⟩

theorem mem_keys {keys reached : List String} (n : String) :
    n ∈ keys.filter (fun n => stays keys reached n) ↔ n ∈ keys ∧ n ∈ reached := by
  rw [List.mem_filter]
  constructor
  · rintro ⟨m, s⟩; exact ⟨m, by simpa [stays, m] using s⟩
  · rintro ⟨m, s⟩; exact ⟨m, by simp [stays, s]⟩

theorem prune_keyed {A : Archive F T B X} (h : Keyed A) (reached : List String) : Keyed (prune reached A) := by
  rw [prune_eq]
  refine ⟨fun n => ?_, fun n => ?_, fun n => ?_, ?_⟩
  · dsimp only
    rw [mem_keys, h.functions]
    simp only [mem_table h.functions]
    exact ⟨fun ⟨⟨d, a⟩, b⟩ => ⟨d, a, b⟩, fun ⟨d, a, b⟩ => ⟨⟨d, a⟩, b⟩⟩
  · dsimp only
    rw [mem_keys, h.templates]
    simp only [mem_table h.templates]
    exact ⟨fun ⟨⟨d, a⟩, b⟩ => ⟨d, a, b⟩, fun ⟨d, a, b⟩ => ⟨⟨d, a⟩, b⟩⟩
  · dsimp only
    rw [mem_keys, h.buses]
    simp only [mem_table h.buses]
    exact ⟨fun ⟨⟨d, a⟩, b⟩ => ⟨d, a, b⟩, fun ⟨d, a, b⟩ => ⟨⟨d, a⟩, b⟩⟩
  · exact h.once.sublist (List.filter_sublist.map _)

/-- What the decorators make of each table. -/
def inferred (P : Passes F T B X R) (A : Archive F T B X) : Archive F T B X :=
  { A with templates := A.templates.map fun e => (e.1, P.infer A e.2) }

theorem tdec (A : Archive F T B X) : templateDecorators P A =
    ({ A with templates := A.templates.map fun e => (e.1, (P.reduceTemplate (inferred P A) (P.infer A e.2)).1) },
      A.templates.flatMap fun e => (P.reduceTemplate (inferred P A) (P.infer A e.2)).2) := by
  unfold templateDecorators
  simp only [mapTable_eq, List.map_map, List.flatMap_map]
  rfl

theorem fdec (A : Archive F T B X) : functionDecorators P A =
    ({ A with functions := A.functions.map fun e => (e.1, (decorateFunction P A e.2).1) },
      A.functions.flatMap fun e => (decorateFunction P A e.2).2) := by
  unfold functionDecorators
  simp only [mapTable_eq]

theorem bdec (A : Archive F T B X) : busDecorators P A =
    ({ A with buses := A.buses.map fun e => (e.1, (decorateBus P A e.2).1) },
      A.buses.flatMap fun e => (decorateBus P A e.2).2) := by
  unfold busDecorators
  simp only [mapTable_eq]

theorem map_keys {D : Type} {keys : List String} {l : List (String × D)} (h : ∀ n, n ∈ keys ↔ ∃ d, (n, d) ∈ l) (f : D → D) (n : String) :
    n ∈ keys ↔ ∃ d, (n, d) ∈ l.map fun e => (e.1, f e.2) := by
  rw [h]
  constructor
  · rintro ⟨d, m⟩; exact ⟨f d, List.mem_map.2 ⟨_, m, rfl⟩⟩
  · rintro ⟨d, m⟩
    obtain ⟨e, me, he⟩ := List.mem_map.1 m
    cases he
    exact ⟨e.2, me⟩

theorem keyedT {A : Archive F T B X} (h : Keyed A) : Keyed (templateDecorators P A).1 := by
  rw [tdec]
  refine ⟨h.functions, map_keys h.templates (fun t => (P.reduceTemplate (inferred P A) (P.infer A t)).1), h.buses, ?_⟩
  dsimp only
  rw [List.map_map]
  exact h.once

theorem keyedF {A : Archive F T B X} (h : Keyed A) : Keyed (functionDecorators P A).1 := by
  rw [fdec]
  exact ⟨map_keys h.functions (fun t => (decorateFunction P A t).1), h.templates, h.buses, h.once⟩

theorem keyedB {A : Archive F T B X} (h : Keyed A) : Keyed (busDecorators P A).1 := by
  rw [bdec]
  exact ⟨h.functions, h.templates, map_keys h.buses (fun t => (decorateBus P A t).1), h.once⟩

theorem look_accept {rs : List R} {go : Res (Archive F T B X) R} {ws A'} (h : look rs go = .accept ws A') :
    rs = [] ∧ go = .accept ws A' := by
  cases rs with
  | nil => exact ⟨rfl, h⟩
  | cons r l => simp [look] at h

theorem change_accept {s : Archive F T B X × List R} {go : Archive F T B X → Res (Archive F T B X) R} {ws A'}
    (h : change s go = .accept ws A') : s.2 = [] ∧ go s.1 = .accept ws A' := by
  obtain ⟨A, rs⟩ := s
  cases rs with
  | nil => exact ⟨rfl, h⟩
  | cons r l => simp [change] at h

theorem data_of {A : Archive F T B X} (once : (A.templates.map (·.1)).Nodup) {n : String} {t : T} (m : (n, t) ∈ A.templates) :
    templateData A n = some t := by
  unfold templateData
  generalize A.templates = l at once m
  induction l with
  | nil => cases m
  | cons e l ih =>
    rw [List.map_cons, List.nodup_cons] at once
    rcases List.mem_cons.1 m with rfl | m
    · simp
    · have : e.1 ≠ n := fun he => once.1 (he ▸ List.mem_map.2 ⟨_, m, rfl⟩)
      rw [List.find?_cons_of_neg (by simpa using this)]
      exact ih once.2 m

theorem sem_some {A : Archive F T B X} (k : Keyed A) (l : List String) (hl : ∀ n ∈ l, n ∈ A.templateKeys) :
    ∃ r, semTemplates P A l = some r := by
  induction l with
  | nil => exact ⟨_, rfl⟩
  | cons n l ih =>
    obtain ⟨t, m⟩ := (k.templates n).1 (hl n (by simp))
    obtain ⟨⟨es, ws⟩, h⟩ := ih fun a ha => hl a (by simp [ha])
    simp only [semTemplates, data_of k.once m, h]
    split
    · split <;> exact ⟨_, rfl⟩
    · exact ⟨_, rfl⟩

/-- The analysis of custom templates fails with errors only (type_analysis/src/analyzers/custom_gate_analysis.rs:147-151). -/
def Honest (P : Passes F T B X R) : Prop := ∀ n t, P.gate n t ≠ .error []

theorem sem_clean (hp : Honest P) {A : Archive F T B X} (l : List String) {ws : List R} (h : semTemplates P A l = some ([], ws)) :
    ∀ n ∈ l, P.unknown n A = [] ∧
      ∀ t, templateData A n = some t → P.custom t = true → ∃ w, P.gate n t = .ok w ∧ ∀ r ∈ w, r ∈ ws := by
  induction l generalizing ws with
  | nil => intro n hn; cases hn
  | cons a l ih =>
    rw [semTemplates] at h
    split at h
    · cases h
    · rename_i t ht
      split at h
      · cases h
      · rename_i es ws' hs
        have key : es = [] ∧ P.unknown a A = [] ∧ (∀ r ∈ ws', r ∈ ws) ∧
            (P.custom t = true → ∃ w, P.gate a t = .ok w ∧ ∀ r ∈ w, r ∈ ws) := by
          split at h
          · rename_i hc
            split at h
            · rename_i w hw
              simp only [Option.some.injEq, Prod.mk.injEq, List.append_eq_nil_iff] at h
              obtain ⟨⟨h1, h2⟩, rfl⟩ := h
              exact ⟨h2, h1, fun r hr => by simp [hr], fun _ => ⟨w, hw, fun r hr => by simp [hr]⟩⟩
            · simp only [Option.some.injEq, Prod.mk.injEq, List.append_eq_nil_iff] at h
              rename_i e he
              obtain ⟨⟨⟨h1, h3⟩, h2⟩, rfl⟩ := h
              exact absurd (h3 ▸ he) (hp a t)
          · rename_i hc
            simp only [Option.some.injEq, Prod.mk.injEq, List.append_eq_nil_iff] at h
            obtain ⟨⟨h1, h2⟩, rfl⟩ := h
            exact ⟨h2, h1, fun r hr => hr, fun c => absurd c hc⟩
        obtain ⟨rfl, k2, k3, k4⟩ := key
        intro n hn
        rcases List.mem_cons.1 hn with rfl | hn
        · refine ⟨k2, fun t' ht' c => ?_⟩
          rw [ht] at ht'
          cases ht'
          exact k4 c
        · obtain ⟨a1, a2⟩ := ih hs n hn
          refine ⟨a1, fun t' ht' c => ?_⟩
          obtain ⟨w, hw, hr⟩ := a2 t' ht' c
          exact ⟨w, hw, fun r m => k3 r (hr r m)⟩

/-- What is known when `check_types` gets to its last stages. -/
theorem accept_parts {A A' : Archive F T B X} {ws : List R} (h : checkTypes P A = .accept ws A') :
    P.naming A = [] ∧ templateAnalyses P A = [] ∧ functionAnalyses P A = [] ∧ busAnalyses P A = [] ∧
    (templateDecorators P A).2 = [] ∧ (functionDecorators P (templateDecorators P A).1).2 = [] ∧
    (busDecorators P (functionDecorators P (templateDecorators P A).1).1).2 = [] ∧
    lastStages P (busDecorators P (functionDecorators P (templateDecorators P A).1).1).1 = .accept ws A' := by
  unfold checkTypes at h
  obtain ⟨h1, h⟩ := look_accept h
  obtain ⟨h2, h⟩ := look_accept h
  obtain ⟨h3, h⟩ := look_accept h
  obtain ⟨h4, h⟩ := look_accept h
  obtain ⟨h5, h⟩ := change_accept h
  obtain ⟨h6, h⟩ := change_accept h
  obtain ⟨h7, h⟩ := change_accept h
  exact ⟨h1, h2, h3, h4, h5, h6, h7, h⟩

theorem last_parts {A A' : Archive F T B X} {ws : List R} (h : lastStages P A = .accept ws A') :
    ∃ reached, P.typeCheck A = .ok reached ∧ A' = prune reached A ∧ semantic P A' = some ([], ws) := by
  unfold lastStages at h
  split at h
  · cases h
  · rename_i reached hr
    split at h
    · cases h
    · rename_i w hs
      cases h
      exact ⟨reached, hr, rfl, hs⟩
    · cases h

/-- C103.  In a program the type analysis accepts, every definition, reached or not, has passed the analyses of its kind. -/
theorem C103_passed {A A' : Archive F T B X} {ws : List R} (h : checkTypes P A = .accept ws A') :
    P.naming A = [] ∧
    (∀ n t, (n, t) ∈ A.templates → (P.externC t = true → P.custom t = true) ∧ P.returns t = [] ∧ P.signals t = []) ∧
    (∀ n f, (n, f) ∈ A.functions → P.freeFunction A.functionKeys f = [] ∧ P.allPaths f = none) ∧
    (∀ n b, (n, b) ∈ A.buses → P.freeBus A.functionKeys b = []) := by
  obtain ⟨h1, h2, h3, h4, -⟩ := accept_parts h
  refine ⟨h1, fun n t m => ?_, fun n f m => ?_, fun n b m => ?_⟩
  · have := List.flatMap_eq_nil_iff.1 h2 _ m
    simp only [templateReports, List.append_eq_nil_iff] at this
    obtain ⟨⟨a, b⟩, c⟩ := this
    refine ⟨fun e => ?_, b, c⟩
    cases hc : P.custom t with
    | true => rfl
    | false => simp [e, hc] at a
  · have := List.flatMap_eq_nil_iff.1 h3 _ m
    simpa [Option.toList_eq_nil_iff] using this
  · exact List.flatMap_eq_nil_iff.1 h4 _ m

/-- The archive after the decorators of templates, after those of functions, and after those of buses. -/
def afterTemplates (P : Passes F T B X R) (A : Archive F T B X) : Archive F T B X :=
  { A with templates := A.templates.map fun e => (e.1, (P.reduceTemplate (inferred P A) (P.infer A e.2)).1) }
def afterFunctions (P : Passes F T B X R) (A : Archive F T B X) : Archive F T B X :=
  let A1 := afterTemplates P A
  { A1 with functions := A1.functions.map fun e => (e.1, (P.reduceFunction A1 (P.constFunction e.2).1).1) }
def afterBuses (P : Passes F T B X R) (A : Archive F T B X) : Archive F T B X :=
  let A2 := afterFunctions P A
  { A2 with buses := A2.buses.map fun e => (e.1, (P.reduceBus A2 (P.constBus e.2).1).1) }

theorem mem_map_table {D : Type} (f : D → D) (l : List (String × D)) (n : String) (d : D) :
    (n, d) ∈ l.map (fun e => (e.1, f e.2)) ↔ ∃ d0, (n, d0) ∈ l ∧ d = f d0 := by
  rw [List.mem_map]
  constructor
  · rintro ⟨⟨a, b⟩, m, he⟩; cases he; exact ⟨b, m, rfl⟩
  · rintro ⟨d0, m, rfl⟩; exact ⟨_, m, rfl⟩

/-- C103.  The archive that goes on holds the definitions reached, each as the decorators have made it, and no other; its sets of names
are the names of its tables; the rest is as it was. -/
theorem C103_kept {A A' : Archive F T B X} {ws : List R} (k : Keyed A) (h : checkTypes P A = .accept ws A') :
    ∃ reached, P.typeCheck (afterBuses P A) = .ok reached ∧ Keyed A' ∧ A'.rest = A.rest ∧
    (∀ n t', (n, t') ∈ A'.templates ↔
      n ∈ reached ∧ ∃ t, (n, t) ∈ A.templates ∧ t' = (P.reduceTemplate (inferred P A) (P.infer A t)).1) ∧
    (∀ n f', (n, f') ∈ A'.functions ↔
      n ∈ reached ∧ ∃ f, (n, f) ∈ A.functions ∧ f' = (P.reduceFunction (afterTemplates P A) (P.constFunction f).1).1) ∧
    (∀ n b', (n, b') ∈ A'.buses ↔
      n ∈ reached ∧ ∃ b, (n, b) ∈ A.buses ∧ b' = (P.reduceBus (afterFunctions P A) (P.constBus b).1).1) := by
  obtain ⟨-, -, -, -, -, -, -, h⟩ := accept_parts h
  have k3 := keyedB (P := P) (keyedF (P := P) (keyedT (P := P) k))
  obtain ⟨reached, hr, rfl, -⟩ := last_parts h
  refine ⟨reached, by rw [bdec, fdec, tdec] at hr; exact hr, prune_keyed k3 reached, ?_, fun n t' => ?_, fun n f' => ?_, fun n b' => ?_⟩
  · rw [prune_eq, bdec, fdec, tdec]
  · rw [prune_eq]
    dsimp only
    rw [mem_table k3.templates, and_comm, ← mem_map_table (fun t => (P.reduceTemplate (inferred P A) (P.infer A t)).1), bdec, fdec, tdec]
  · rw [prune_eq]
    dsimp only
    rw [mem_table k3.functions, and_comm, ← mem_map_table (fun f => (P.reduceFunction (afterTemplates P A) (P.constFunction f).1).1),
      bdec, fdec, tdec]
    rfl
  · rw [prune_eq]
    dsimp only
    rw [mem_table k3.buses, and_comm, ← mem_map_table (fun b => (P.reduceBus (afterFunctions P A) (P.constBus b).1).1),
      bdec, fdec, tdec]
    rfl

/-- C103.  Nor has the reduction of types or the handling of constants found anything to report in a definition, reached or not. -/
theorem C103_decorated {A A' : Archive F T B X} {ws : List R} (h : checkTypes P A = .accept ws A') :
    (∀ n t, (n, t) ∈ A.templates → (P.reduceTemplate (inferred P A) (P.infer A t)).2 = []) ∧
    (∀ n f, (n, f) ∈ A.functions →
      (P.constFunction f).2 = [] ∧ (P.reduceFunction (afterTemplates P A) (P.constFunction f).1).2 = []) ∧
    (∀ n b, (n, b) ∈ A.buses → (P.constBus b).2 = [] ∧ (P.reduceBus (afterFunctions P A) (P.constBus b).1).2 = []) := by
  obtain ⟨-, -, -, -, h5, h6, h7, -⟩ := accept_parts h
  rw [fdec, tdec] at h6
  rw [bdec, fdec, tdec] at h7
  rw [tdec] at h5
  refine ⟨fun n t m => List.flatMap_eq_nil_iff.1 h5 _ m, fun n f m => ?_, fun n b m => ?_⟩
  · have := List.flatMap_eq_nil_iff.1 h6 _ m
    simp only [decorateFunction, List.append_eq_nil_iff] at this
    exact ⟨this.2, this.1⟩
  · have := List.flatMap_eq_nil_iff.1 h7 _ m
    simp only [decorateBus, List.append_eq_nil_iff] at this
    exact ⟨this.2, this.1⟩

/-- C103.  Every template and bus that goes on has passed the analysis of unknowns, in the archive without what is not reached, and every
custom template the one of custom templates, whose warnings are given. -/
theorem C103_semantic {A A' : Archive F T B X} {ws : List R} (hp : Honest P) (k : Keyed A) (h : checkTypes P A = .accept ws A') :
    (∀ n b, (n, b) ∈ A'.buses → P.unknown n A' = []) ∧
    (∀ n t, (n, t) ∈ A'.templates → P.unknown n A' = [] ∧
      (P.custom t = true → ∃ w, P.gate n t = .ok w ∧ ∀ r ∈ w, r ∈ ws)) := by
  obtain ⟨-, -, -, -, -, -, -, h⟩ := accept_parts h
  have k3 := keyedB (P := P) (keyedF (P := P) (keyedT (P := P) k))
  obtain ⟨reached, hr, e, hs⟩ := last_parts h
  have k' : Keyed A' := e ▸ prune_keyed k3 reached
  unfold semantic at hs
  split at hs
  · cases hs
  · rename_i es ws' ht
    simp only [Option.some.injEq, Prod.mk.injEq, List.append_eq_nil_iff] at hs
    obtain ⟨⟨hb, rfl⟩, rfl⟩ := hs
    refine ⟨fun n b m => List.flatMap_eq_nil_iff.1 hb n ((k'.buses n).2 ⟨b, m⟩), fun n t m => ?_⟩
    obtain ⟨a1, a2⟩ := sem_clean hp _ ht n ((k'.templates n).2 ⟨t, m⟩)
    exact ⟨a1, a2 t (data_of k'.once m)⟩

/-- C103.  The type analysis of an archive whose sets of names are right does not end at an `assert!` of the archive. -/
theorem C103_total {A : Archive F T B X} (k : Keyed A) : checkTypes P A ≠ .panic := by
  have hlast : ∀ A3, Keyed A3 → lastStages P A3 ≠ .panic := by
    intro A3 k3 h
    unfold lastStages at h
    split at h
    · cases h
    · rename_i reached _
      obtain ⟨⟨es, ws⟩, hs⟩ := sem_some (P := P) (prune_keyed k3 reached) (prune reached A3).templateKeys fun _ m => m
      have : semantic P (prune reached A3) ≠ none := by simp [semantic, hs]
      split at h
      · contradiction
      · cases h
      · cases h
  have hl : ∀ (rs : List R) (go : Res (Archive F T B X) R), go ≠ .panic → look rs go ≠ .panic := by
    intro rs go hg
    cases rs with
    | nil => exact hg
    | cons r l => simp [look]
  have hc : ∀ (s : Archive F T B X × List R) (go : Archive F T B X → Res (Archive F T B X) R), go s.1 ≠ .panic → change s go ≠ .panic := by
    rintro ⟨a, rs⟩ go hg
    cases rs with
    | nil => exact hg
    | cons r l => simp [change]
  unfold checkTypes
  refine hl _ _ (hl _ _ (hl _ _ (hl _ _ (hc _ _ (hc _ _ (hc _ _ (hlast _ ?_)))))))
  exact keyedB (keyedF (keyedT k))

/-- C103.  A fault in a definition that the main component does not reach ends the compilation too, with reports. -/
theorem C103_unreached {A : Archive F T B X} (k : Keyed A)
    (bad : (∃ n t, (n, t) ∈ A.templates ∧ (P.returns t ≠ [] ∨ P.signals t ≠ [] ∨ (P.externC t = true ∧ P.custom t = false))) ∨
      (∃ n f, (n, f) ∈ A.functions ∧ (P.freeFunction A.functionKeys f ≠ [] ∨ P.allPaths f ≠ none)) ∨
      ∃ n b, (n, b) ∈ A.buses ∧ P.freeBus A.functionKeys b ≠ []) :
    ∃ es, checkTypes P A = .reject es := by
  cases h : checkTypes P A with
  | panic => exact absurd h (C103_total k)
  | reject es => exact ⟨es, rfl⟩
  | accept ws A' =>
    obtain ⟨-, h2, h3, h4⟩ := C103_passed h
    rcases bad with ⟨n, t, m, b⟩ | ⟨n, f, m, b⟩ | ⟨n, b, m, c⟩
    · obtain ⟨a1, a2, a3⟩ := h2 n t m
      rcases b with b | b | ⟨b, c⟩
      · exact absurd a2 b
      · exact absurd a3 b
      · rw [a1 b] at c; cases c
    · obtain ⟨a1, a2⟩ := h3 n f m
      rcases b with b | b
      · exact absurd a1 b
      · exact absurd a2 b
    · exact absurd (h4 n b m) c

/-- Analyses for the examples: a definition is a list of words; the word is what is wrong with it.  The type check reaches `main`, `f` and `g`. -/
def demo : Passes (List String) (List String) (List String) Unit String where
  naming _ := []
  externC t := t.contains "extern"
  custom t := t.contains "custom"
  externReport _ := "extern"
  returns t := t.filter (· = "return")
  signals t := t.filter (· = "signal")
  freeFunction _ f := f.filter (· = "signal")
  allPaths f := if f.contains "return" then none else some "no return"
  freeBus _ b := b.filter (· = "while")
  infer _ t := t
  reduceTemplate _ t := (t ++ ["reduced"], [])
  constFunction f := (f ++ ["const"], [])
  reduceFunction _ f := (f ++ ["reduced"], [])
  constBus b := (b ++ ["const"], [])
  reduceBus _ b := (b, [])
  typeCheck _ := .ok ["main", "f", "g"]
  unknown n _ := if n = "u" then ["unknown"] else []
  gate _ t := if t.contains "constraint" then .error ["constraint"] else .ok (t.filter (· = "intermediate"))

def prog (dead : List String) : Archive (List String) (List String) (List String) Unit where
  functions := [("f", ["return"]), ("h", ["return"])]
  templates := [("u", dead), ("main", []), ("g", ["custom", "extern", "intermediate"])]
  buses := [("b", [])]
  functionKeys := ["h", "f"]
  templateKeys := ["main", "u", "g"]
  busKeys := ["b"]
  rest := ()

theorem prog_keyed (d : List String) : Keyed (prog d) := by
  refine ⟨fun n => ?_, fun n => ?_, fun n => ?_, ?_⟩
  · simp [prog, or_comm, exists_or]
  · simp [prog, exists_or]
    exact ⟨fun h => by rcases h with h | h | h <;> simp [h], fun h => by rcases h with h | h | h <;> simp [h]⟩
  · simp [prog]
  · simp [prog]

/-- What is not reached goes, and its unknowns are not looked at; what is reached is as decorated; the warning is given. -/
theorem prog_accepted : checkTypes demo (prog []) = .accept ["intermediate"]
    { functions := [("f", ["return", "const", "reduced"])],
      templates := [("main", ["reduced"]), ("g", ["custom", "extern", "intermediate", "reduced"])],
      buses := [], functionKeys := ["f"], templateKeys := ["main", "g"], busKeys := [], rest := () } := by decide +kernel

example : (∀ n t, (n, t) ∈ (prog []).templates → (demo.externC t = true → demo.custom t = true) ∧ demo.returns t = [] ∧ demo.signals t = []) :=
  (C103_passed prog_accepted).2.1
example : (demo.constFunction ["return"]).2 = [] ∧
    (demo.reduceFunction (afterTemplates demo (prog [])) (demo.constFunction ["return"]).1).2 = [] :=
  (C103_decorated prog_accepted).2.1 "h" ["return"] (by simp [prog])
example : ∃ reached, demo.typeCheck (afterBuses demo (prog [])) = .ok reached ∧ ¬ "u" ∈ reached := by
  obtain ⟨reached, h, -, -, ht, -⟩ := C103_kept (prog_keyed []) prog_accepted
  exact ⟨reached, h, fun hu => by simpa using (ht "u" _).2 ⟨hu, [], by simp [prog], rfl⟩⟩
theorem demo_honest : Honest demo := by
  intro n t
  simp only [demo]
  split <;> simp
example : demo.custom ["custom", "extern", "intermediate", "reduced"] = true →
    ∃ w, demo.gate "g" ["custom", "extern", "intermediate", "reduced"] = .ok w ∧ ∀ r ∈ w, r ∈ ["intermediate"] :=
  ((C103_semantic demo_honest (prog_keyed _) prog_accepted).2 "g" _ (by simp)).2
example : checkTypes demo (prog ["return"]) ≠ .panic := C103_total (prog_keyed _)
/-- A template that is not reached, with a `return`. -/
example : ∃ es, checkTypes demo (prog ["return"]) = .reject es :=
  C103_unreached (prog_keyed _) (.inl ⟨"u", ["return"], by simp [prog], .inl (by decide)⟩)

end Verif.Props.Stages
