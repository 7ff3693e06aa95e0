import Mathlib.Data.List.Basic

/-!
Model of the treatment of included files: `parser/src/include_logic.rs` and the main loop of
`run_parser` (`parser/src/lib.rs:59-121`).

The file system is a parameter. What parsing gives for one file is a parameter too: the names it
includes, whether it has the custom-templates pragma, whether it declares custom templates; the
version checks (lib.rs:104-120), which end the run with an error, are counted as part of parsing.
-/

namespace Verif.Include

/-- What the parser finds in a file (ast.rs `AST`). -/
structure File (N : Type) where
  includes : List N
  pragma : Bool
  gates : Bool

/-- The file system as used here: `canonicalize`, `is_file`, a path built from a directory and an
include name (include_logic.rs:30-32), a path built from a directory and a path (lib.rs:43-45; pushing
an absolute path replaces the whole), the parent (`PathBuf::pop`) and the contents: `none` if the file
cannot be read, `some none` if it cannot be parsed. -/
structure FS (P N : Type) where
  canon : P → Option P
  isFile : P → Bool
  join : P → N → P
  within : P → P → P
  dir : P → P
  read : P → Option (Option (File N))

/-- Errors that end the run. -/
inductive IncErr where
  | notFound | fileOs | parse | outOfFuel
  deriving DecidableEq, Repr

variable {P N : Type} [DecidableEq P]

/-- include_logic.rs:28-45, the loop of `add_include` over the directories. -/
def search (fs : FS P N) (name : N) : List P → Option P
  | [] => none
  | lib :: libs =>
    match fs.canon (fs.join lib name) with
    | none => search fs name libs
    | some path => if fs.isFile path then some path else search fs name libs

/-- lib.rs:33-57, `find_file`, with the directories `""` and the libraries: the path at which the file
could be read, and its contents. -/
def findFile (fs : FS P N) : List P → Option (P × Option (File N))
  | [] => none
  | p :: ps =>
    match fs.read p with
    | some f => some (p, f)
    | none => findFile fs ps

/-- lib.rs:75-76 with 33-57: the places tried for a file taken from the stack. -/
def load (fs : FS P N) (libs : List P) (crr : P) : Option (P × Option (File N)) :=
  findFile fs (crr :: libs.map fun l => fs.within l crr)

/-- include_logic.rs:7-11 `FileStack` and 68-73 `IncludesGraph`. `black` is in the order of insertion,
which is the order in which the files are taken; the top of the stack is the head of the list; the
adjacency map is a function (no entry: no edges). -/
structure St (P : Type) where
  loc : P
  black : List P
  stack : List P
  nodes : List (P × Bool)
  adj : P → List Nat
  gates : List Nat

/-- include_logic.rs:14-18, `FileStack::new`, and 75-78. -/
def init (fs : FS P N) (main : P) : St P :=
  ⟨fs.dir main, [], [main], [], fun _ => [], []⟩

/-- include_logic.rs:48-63, `take_next`. -/
def takeNext (black : List P) : List P → Option (P × List P)
  | [] => none
  | f :: rest => if f ∈ black then takeNext black rest else some (f, rest)

/-- include_logic.rs:80-85, `add_node`. -/
def addNode (st : St P) (path : P) (pragma gates : Bool) : St P :=
  { st with
    nodes := st.nodes ++ [(path, pragma)]
    gates := if gates then st.gates ++ [st.nodes.length] else st.gates }

/-- include_logic.rs:87-95, `add_edge`. -/
def addEdge (fs : FS P N) (st : St P) (old : P) : Except IncErr (St P) :=
  match fs.canon old with
  | none => .error .fileOs
  | some path => .ok { st with
      adj := fun q => if q = path then st.adj q ++ [st.nodes.length - 1] else st.adj q }

/-- include_logic.rs:20-46, `add_include`. -/
def addInclude (fs : FS P N) (libs : List P) (st : St P) (name : N) : Except IncErr (St P × P) :=
  match search fs name (st.loc :: libs) with
  | none => .error .notFound
  | some path =>
    .ok (if path ∈ st.black then st else { st with stack := path :: st.stack }, path)

/-- lib.rs:98-103, the loop over the includes of a file. -/
def addIncludes (fs : FS P N) (libs : List P) : List N → St P → Except IncErr (St P)
  | [], st => .ok st
  | n :: ns, st =>
    match addInclude fs libs st n with
    | .error e => .error e
    | .ok (st1, path) =>
      match addEdge fs st1 path with
      | .error e => .error e
      | .ok st2 => addIncludes fs libs ns st2

/-- lib.rs:74-121, the `while` loop. The first argument bounds the number of iterations. -/
def loop (fs : FS P N) (libs : List P) : Nat → St P → Except IncErr (St P)
  | 0, _ => .error .outOfFuel
  | fuel + 1, st =>
    match takeNext st.black st.stack with
    | none => .ok { st with stack := [] }
    | some (crr, rest) =>
      match load fs libs crr with
      | none => .error .fileOs
      | some (_, none) => .error .parse
      | some (path, some file) =>
        let st1 : St P := { st with loc := fs.dir crr, black := st.black ++ [crr], stack := rest }
        match addIncludes fs libs file.includes (addNode st1 path file.pragma file.gates) with
        | .error e => .error e
        | .ok st2 => loop fs libs fuel st2

/-- lib.rs:59-121: all files of a program. -/
def collect (fs : FS P N) (libs : List P) (fuel : Nat) (main : P) : Except IncErr (St P) :=
  loop fs libs fuel (init fs main)

/-- Errors of the pragma check: `nodes[from]` out of range, or the bound on the depth reached. -/
inductive TravErr where
  | panic | outOfFuel
  deriving DecidableEq, Repr

/-- include_logic.rs:125-142, the loop over the edges in `traverse`; `rec` is the recursive call. -/
def travEdges (rec : Nat → List (Nat × Nat) → Except TravErr (List (List P))) (frm : Nat)
    (trav : List (Nat × Nat)) : List Nat → Except TravErr (List (List P))
  | [] => .ok []
  | b :: bs =>
    if (frm, b) ∈ trav then travEdges rec frm trav bs
    else
      match rec b ((frm, b) :: trav) with
      | .error e => .error e
      | .ok x =>
        match travEdges rec frm trav bs with
        | .error e => .error e
        | .ok y => .ok (x ++ y)

/-- include_logic.rs:105-145, `traverse`. The first argument bounds the depth of recursion. -/
def traverse (st : St P) : Nat → Nat → List P → List (Nat × Nat) → Except TravErr (List (List P))
  | 0, _, _, _ => .error .outOfFuel
  | fuel + 1, frm, path, trav =>
    match st.nodes[frm]? with
    | none => .error .panic
    | some (fromPath, pragma) =>
      let newPath := path ++ [fromPath]
      match travEdges (fun b t => traverse st fuel b newPath t) frm trav (st.adj fromPath) with
      | .error e => .error e
      | .ok rest => .ok ((if pragma then [] else [newPath]) ++ rest)

/-- include_logic.rs:97-103, `get_problematic_paths`. -/
def problematic (st : St P) (fuel : Nat) : List Nat → Except TravErr (List (List P))
  | [] => .ok []
  | g :: gs =>
    match traverse st fuel g [] [] with
    | .error e => .error e
    | .ok x =>
      match problematic st fuel gs with
      | .error e => .error e
      | .ok y => .ok (x ++ y)

end Verif.Include
