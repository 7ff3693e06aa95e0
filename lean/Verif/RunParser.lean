/-!
# The choice of the main component

What `run_parser` does after all files have been read: it wants exactly one main component among them, looks at the pragmas along the
includes, makes the archive and rewrites the anonymous components and tuples.

Simplifications.
* Reading the files is the matter of C49 and C101, the chains of includes of C50, the archive of C96, the rewriting of C75; here these are parameters.
* A report is its kind, with the places it shows where the choice of the main component decides them.
-/

namespace Verif.RunParser

/-- What is kept of a file that has been read (parser/src/lib.rs:82-90): its number, its main component, whether it has the pragma for custom templates, and
its definitions. -/
structure File (M D : Type) where
  id : Nat
  main : Option M
  custom : Bool
  defs : List D

/-- The reports of the end of `run_parser`; `other` are those of its parts. -/
inductive Rep (M R : Type) where
  | noMain
  | multipleMain (primary : List (Nat × M)) (secondary : List (Nat × M))
  | missingPragma (path : List String)
  | other (r : R)
  deriving DecidableEq, Repr

variable {M D A R : Type}

/-- lib.rs:85-87, the list `main_components`. -/
def mains : List (File M D) → List (Nat × M × Bool)
  | [] => []
  | f :: l =>
    match f.main with
    | some m => (f.id, m, f.custom) :: mains l
    | none => mains l

/-- lib.rs:166-179 `produce_report_with_main_components`: the loop, with its counter. -/
def labels : Nat → List (Nat × M × Bool) → List (Nat × M) × List (Nat × M)
  | _, [] => ([], [])
  | j, (i, m, _) :: l =>
    let (p, s) := labels (j + 1) l
    if j > 0 then (p, (i, m) :: s) else ((i, m) :: p, s)

/-- The parts that are parameters: the chains found by `get_problematic_paths`, `ProgramArchive::new` and `apply_syntactic_sugar`. -/
structure Parts (M D A R : Type) where
  paths : List (List String)
  archive : Nat → M → List (Nat × List D) → Bool → Except (List R) A
  sugar : A → Except R A

/-- lib.rs:115-163, the end of `run_parser`; `ws` are the warnings so far. -/
def finish (P : Parts M D A R) (files : List (File M D)) (ws : List (Rep M R)) : Except (List (Rep M R)) (A × List (Rep M R)) :=
  match mains files with
  | [] => .error (ws ++ [.noMain])
  | m1 :: m2 :: ms =>
    let (p, s) := labels 0 (m1 :: m2 :: ms)
    .error (ws ++ [.multipleMain p s])
  | [(id, m, custom)] =>
    match P.paths with
    | e :: es => .error (ws ++ (e :: es).map .missingPragma)
    | [] =>
      match P.archive id m (files.map fun f => (f.id, f.defs)) custom with
      | .error rs => .error (ws ++ rs.map .other)
      | .ok a =>
        match P.sugar a with
        | .error r => .error (ws ++ [.other r])
        | .ok a' => .ok (a', ws)

end Verif.RunParser
