/-!
# The stages of the type analysis

`check_types` runs the analyses of a program in stages, ends at the first stage that finds a fault, and takes out of the archive what the
main component does not reach before the last stage.

Simplifications.
* The analyses are parameters: what they find is the matter of the claims on each of them (such as C73 and C90).
* A hash map is the list of its entries, a hash set the list of its elements, both in the order they are gone through.
-/

namespace Verif.Stages

/-- program_structure/src/program_library/program_archive.rs:13-27 `ProgramArchive`, as far as `check_types` writes it; the other fields (main component,
files) are in `rest`. -/
structure Archive (F T B X : Type) where
  functions : List (String × F)
  templates : List (String × T)
  buses : List (String × B)
  functionKeys : List String
  templateKeys : List String
  busKeys : List String
  rest : X
  deriving DecidableEq, Repr

/-- The analyses `check_types` calls.  Those that give `Result<(), _>` give the list of their reports, empty for `Ok`. -/
structure Passes (F T B X R : Type) where
  /-- `check_naming_correctness` (check_types.rs:86). -/
  naming : Archive F T B X → List R
  /-- `is_extern_c` and `is_custom_gate` (check_types.rs:100). -/
  externC : T → Bool
  custom : T → Bool
  /-- The report of check_types.rs:101-110. -/
  externReport : T → R
  /-- `free_of_returns` and `check_signal_correctness` (check_types.rs:112-113). -/
  returns : T → List R
  signals : T → List R
  /-- `free_of_template_elements` and `all_paths_with_return_check` (check_types.rs:137-138). -/
  freeFunction : List String → F → List R
  allPaths : F → Option R
  /-- `free_of_invalid_statements` (check_types.rs:161). -/
  freeBus : List String → B → List R
  /-- `component_type_inference::inference` on one template (check_types.rs:127). -/
  infer : Archive F T B X → T → T
  /-- `type_reduction` and `constants_handler` (check_types.rs:130,152-153,172-173). -/
  reduceTemplate : Archive F T B X → T → T × List R
  constFunction : F → F × List R
  reduceFunction : Archive F T B X → F → F × List R
  constBus : B → B × List R
  reduceBus : Archive F T B X → B → B × List R
  /-- `type_check` (check_types.rs:50): reports, or the names reached. -/
  typeCheck : Archive F T B X → Except (List R) (List String)
  /-- `unknown_known_analysis` (check_types.rs:185,191). -/
  unknown : String → Archive F T B X → List R
  /-- `custom_gate_analysis` (check_types.rs:196): errors, or warnings. -/
  gate : String → T → Except (List R) (List R)

/-- How `check_types` ends: at an `assert!`, with errors, or with warnings and the archive as it is then. -/
inductive Res (A R : Type) where
  | panic
  | reject (errors : List R)
  | accept (warnings : List R) (archive : A)
  deriving DecidableEq, Repr

variable {F T B X R : Type} (P : Passes F T B X R)

/-- check_types.rs:98-120, one template. -/
def templateReports (t : T) : List R :=
  (if P.externC t && !P.custom t then [P.externReport t] else []) ++ P.returns t ++ P.signals t

/-- check_types.rs:94-121 `template_level_analyses`. -/
def templateAnalyses (A : Archive F T B X) : List R := A.templates.flatMap fun e => templateReports P e.2

/-- check_types.rs:134-146 `function_level_analyses`. -/
def functionAnalyses (A : Archive F T B X) : List R :=
  A.functions.flatMap fun e => P.freeFunction A.functionKeys e.2 ++ (P.allPaths e.2).toList

/-- check_types.rs:158-166 `bus_level_analyses`. -/
def busAnalyses (A : Archive F T B X) : List R := A.buses.flatMap fun e => P.freeBus A.functionKeys e.2

/-- `values_mut` with a function that changes the value and reports: the table after it, and the reports. -/
def mapTable {D : Type} (f : D → D × List R) : List (String × D) → List (String × D) × List R
  | [] => ([], [])
  | (n, d) :: l =>
    let (d', r) := f d
    let (l', rs) := mapTable f l
    ((n, d') :: l', r ++ rs)

/-- check_types.rs:123-132 `template_level_decorators`: all are inferred first, then each is reduced with the archive as inferred. -/
def templateDecorators (A : Archive F T B X) : Archive F T B X × List R :=
  let A1 := { A with templates := A.templates.map fun e => (e.1, P.infer A e.2) }
  let (ts, rs) := mapTable (P.reduceTemplate A1) A1.templates
  ({ A1 with templates := ts }, rs)

/-- check_types.rs:151-154, one function: constants first, then the reduction; their reports the other way round. -/
def decorateFunction (A : Archive F T B X) (f : F) : F × List R :=
  let (f1, r1) := P.constFunction f
  let (f2, r2) := P.reduceFunction A f1
  (f2, r2 ++ r1)

/-- check_types.rs:148-156 `function_level_decorators`. -/
def functionDecorators (A : Archive F T B X) : Archive F T B X × List R :=
  let (fs, rs) := mapTable (decorateFunction P A) A.functions
  ({ A with functions := fs }, rs)

/-- check_types.rs:171-174, one bus. -/
def decorateBus (A : Archive F T B X) (b : B) : B × List R :=
  let (b1, r1) := P.constBus b
  let (b2, r2) := P.reduceBus A b1
  (b2, r2 ++ r1)

/-- check_types.rs:168-176 `bus_level_decorators`. -/
def busDecorators (A : Archive F T B X) : Archive F T B X × List R :=
  let (bs, rs) := mapTable (decorateBus P A) A.buses
  ({ A with buses := bs }, rs)

/-- program_archive.rs:105-108 `remove_template`. -/
def removeTemplate (A : Archive F T B X) (id : String) : Archive F T B X :=
  { A with templateKeys := A.templateKeys.filter (· ≠ id), templates := A.templates.filter (·.1 ≠ id) }

/-- program_archive.rs:131-134 `remove_function`. -/
def removeFunction (A : Archive F T B X) (id : String) : Archive F T B X :=
  { A with functionKeys := A.functionKeys.filter (· ≠ id), functions := A.functions.filter (·.1 ≠ id) }

/-- program_archive.rs:157-160 `remove_bus`. -/
def removeBus (A : Archive F T B X) (id : String) : Archive F T B X :=
  { A with busKeys := A.busKeys.filter (· ≠ id), buses := A.buses.filter (·.1 ≠ id) }

/-- One of the three loops of check_types.rs:57-71, on a copy of the names. -/
def removeLoop (rm : Archive F T B X → String → Archive F T B X) (reached : List String) :
    List String → Archive F T B X → Archive F T B X
  | [], A => A
  | n :: l, A => removeLoop rm reached l (if reached.contains n then A else rm A n)

/-- check_types.rs:56-72. -/
def prune (reached : List String) (A : Archive F T B X) : Archive F T B X :=
  let A1 := removeLoop removeFunction reached A.functionKeys A
  let A2 := removeLoop removeTemplate reached A1.templateKeys A1
  removeLoop removeBus reached A2.busKeys A2

/-- program_archive.rs:87-90 `get_template_data`; `none` where the `assert!` fails. -/
def templateData (A : Archive F T B X) (n : String) : Option T := (A.templates.find? (·.1 = n)).map (·.2)

/-- The loop of check_types.rs:189-201: errors and warnings; `none` where `get_template_data` panics. -/
def semTemplates (A : Archive F T B X) : List String → Option (List R × List R)
  | [] => some ([], [])
  | n :: l =>
    match templateData A n with
    | none => none
    | some t =>
      match semTemplates A l with
      | none => none
      | some (es, ws) =>
        if P.custom t then
          match P.gate n t with
          | .ok w => some (P.unknown n A ++ es, w ++ ws)
          | .error e => some (P.unknown n A ++ e ++ es, ws)
        else some (P.unknown n A ++ es, ws)

/-- check_types.rs:178-202 `semantic_analyses`. -/
def semantic (A : Archive F T B X) : Option (List R × List R) :=
  match semTemplates P A A.templateKeys with
  | none => none
  | some (es, ws) => some ((A.busKeys.flatMap fun n => P.unknown n A) ++ es, ws)

/-- check_types.rs:49-83: from the type check on. -/
def lastStages (A : Archive F T B X) : Res (Archive F T B X) R :=
  match P.typeCheck A with
  | .error rs => .reject rs
  | .ok reached =>
    match semantic P (prune reached A) with
    | none => .panic
    | some ([], ws) => .accept ws (prune reached A)
    | some (e :: es, _) => .reject (e :: es)

/-- A stage that only looks: `if !errors.is_empty() { return Err(errors) }`. -/
def look (rs : List R) (go : Res (Archive F T B X) R) : Res (Archive F T B X) R :=
  match rs with
  | [] => go
  | r :: l => .reject (r :: l)

/-- A stage that changes the archive. -/
def change (s : Archive F T B X × List R) (go : Archive F T B X → Res (Archive F T B X) R) : Res (Archive F T B X) R :=
  match s with
  | (A, []) => go A
  | (_, r :: l) => .reject (r :: l)

/-- check_types.rs:6-83 `check_types`. -/
def checkTypes (A : Archive F T B X) : Res (Archive F T B X) R :=
  look (P.naming A) <| look (templateAnalyses P A) <| look (functionAnalyses P A) <| look (busAnalyses P A) <|
    change (templateDecorators P A) fun A1 => change (functionDecorators P A1) fun A2 => change (busDecorators P A2) fun A3 =>
      lastStages P A3

end Verif.Stages
