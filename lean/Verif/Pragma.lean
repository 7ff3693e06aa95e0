import Verif.Driver

/-!
# Pragmas and versions

What the pragmas of a file decide: whether the compiler is of a version the file asks for, whether the file may use custom templates, and
which warnings are given.

Simplifications.
* A pragma is what the grammar makes of it; a version has the numbers written, as natural numbers.
* Reports are their kinds; positions are left out.
* Failures of other parts of the parser are left out (C49, C50, C91, C92).
-/

namespace Verif.Pragma

/-- program_structure/src/abstract_syntax_tree/ast.rs:21 `Version`. -/
structure Ver where
  major : Nat
  minor : Nat
  patch : Nat
  deriving DecidableEq, Repr

/-- ast.rs:6-10 `Pragma`; `badVersion` and `bad` are the two rules of parser/src/lang.lalrpop:47-53,57-63 that report and give `Unrecognized`. -/
inductive Prag where
  | version (v : Ver)
  | custom
  | badVersion
  | bad
  deriving DecidableEq, Repr

/-- The kinds of reports (program_structure/src/program_library/error_code.rs). -/
inductive Rep where
  | multiplePragma | unrecognizedVersion | unrecognizedPragma | compilerVersion | noVersion | customVersion
  deriving DecidableEq, Repr

/-- How the work on a file ends: a panic, reports that end the compilation, or what goes on, with warnings. -/
inductive Res (α : Type) where
  | panic
  | stop (r : List Rep)
  | go (a : α)
  deriving DecidableEq, Repr

/-- lang.lalrpop:854-856 `SMALL_DECNUMBER`: `usize::from_str` with `expect`, on a 64-bit machine. -/
def small (n : Nat) : Option Nat := if n < 2 ^ 64 then some n else none

/-- lang.lalrpop:44-64 `ParsePragma` and 860-864 `Version`: the pragma, and the report pushed; `none` where it panics. -/
def parse : Prag → Option (Option Prag × List Rep)
  | .version v =>
    match small v.major, small v.minor, small v.patch with
    | some a, some b, some c => some (some (.version ⟨a, b, c⟩), [])
    | _, _, _ => none
  | .custom => some (some .custom, [])
  | .badVersion => some (none, [.unrecognizedVersion])
  | .bad => some (none, [.unrecognizedPragma])

/-- The pragmas of a file, one after the other. -/
def parseAll : List Prag → Option (List Prag × List Rep)
  | [] => some ([], [])
  | p :: ps =>
    match parse p with
    | none => none
    | some (q, r) =>
      match parseAll ps with
      | none => none
      | some (qs, rs) => some ((match q with | some q => q :: qs | none => qs), r ++ rs)

/-- The state of the loop of `AST::new`. -/
structure St where
  version : Option Ver
  custom : Option Bool
  reports : List Rep

/-- ast.rs:106-122, one pragma. -/
def astStep (s : St) : Prag → St
  | .version v =>
    match s.version with
    | some _ => { s with reports := s.reports ++ [.multiplePragma] }
    | none => { s with version := some v }
  | .custom =>
    match s.custom with
    | some _ => { s with reports := s.reports ++ [.multiplePragma] }
    | none => { s with custom := some true }
  | _ => s

/-- ast.rs:96-138 `AST::new`: the fields `compiler_version` and `custom_gates`, and the reports. -/
def ast (ps : List Prag) : Option Ver × Bool × List Rep :=
  let s := ps.foldl astStep ⟨none, none, []⟩
  (s.version, s.custom.getD false, s.reports)

/-- `split(".")`: the parts between points. -/
def parts : List Char → List (List Char)
  | [] => [[]]
  | c :: t =>
    if c = '.' then [] :: parts t
    else
      match parts t with
      | [] => [[c]]
      | a :: l => (c :: a) :: l

/-- parser/src/lib.rs:189-196 `parse_number_version`; `none` where it panics. -/
def compilerVersion (s : String) : Option Ver :=
  match parts s.toList with
  | a :: b :: c :: _ =>
    match Driver.parseUsize (.ofList a), Driver.parseUsize (.ofList b), Driver.parseUsize (.ofList c) with
    | some a, some b, some c => some ⟨a, b, c⟩
    | _, _, _ => none
  | _ => none

/-- lib.rs:198-218 `check_number_version`. -/
def checkNumber (file : Option Ver) (comp : Ver) : Except Rep (List Rep) :=
  match file with
  | some r =>
    if r.major == comp.major && (decide (r.minor < comp.minor) || (r.minor == comp.minor && decide (r.patch ≤ comp.patch))) then .ok []
    else .error .compilerVersion
  | none => .ok [.noVersion]

/-- The comparison of lib.rs:227-232 and 249-254 with `custom_gates_version` (lib.rs:225). -/
def beforeCustom (v : Ver) : Bool :=
  decide (v.major < 2) || (v.major == 2 && decide (v.minor < 0)) || (v.major == 2 && v.minor == 0 && decide (v.patch < 6))

/-- lib.rs:220-273 `check_custom_gates_version`. -/
def checkCustom (file : Option Ver) (comp : Ver) : Except Rep Unit :=
  match file with
  | some r => if beforeCustom r then .error .customVersion else .ok ()
  | none => if beforeCustom comp then .error .customVersion else .ok ()

/-- One round of the loop of lib.rs:76-113, as far as pragmas go: parser/src/parser_logic.rs:87-123 `parse_file` (all reports end the compilation), then
the two checks.  The result is `custom_gates` and the warnings. -/
def file (version : String) (ps : List Prag) : Res (Bool × List Rep) :=
  match parseAll ps with
  | none => .panic
  | some (qs, rs) =>
    let (v, g, rs') := ast qs
    match rs ++ rs' with
    | r :: rest => .stop (r :: rest)
    | [] =>
      match compilerVersion version with
      | none => .panic
      | some comp =>
        match checkNumber v comp with
        | .error r => .stop [r]
        | .ok ws =>
          if g then
            match checkCustom v comp with
            | .error r => .stop [r]
            | .ok () => .go (g, ws)
          else .go (g, ws)

/-- The loop of lib.rs:76-113 on the files in the order they are taken: whether each may use custom templates, and all warnings. -/
def files (version : String) : List (List Prag) → Res (List Bool × List Rep)
  | [] => .go ([], [])
  | f :: fs =>
    match file version f with
    | .panic => .panic
    | .stop r => .stop r
    | .go (g, ws) =>
      match files version fs with
      | .panic => .panic
      | .stop r => .stop r
      | .go (gs, ws') => .go (g :: gs, ws ++ ws')

end Verif.Pragma
