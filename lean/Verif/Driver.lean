import Verif.JsonOut

/-!
# The command line and the files of a run

Model of `circom/src/input_user.rs` (options), `circom/src/main.rs` (the stages), `circom/src/execution_user.rs`,
`circom/src/compilation_user.rs` and `compiler/src/compiler_interface.rs` (what is written where), with the functions of
`code_producers` that create the files of the C++ and JavaScript folders.

A path is the list of its components, without `.`, `..` and links.  The stages themselves (parser, checks, execution, code generation) are
parameters that succeed or fail; panics count as failures.  Not modelled: `--irout` and `--inputs` (hidden options that write into the
current directory), messages.
-/

namespace Verif.Driver

abbrev Path := List String

/-- What the command line says (input_user.rs:397-585 `view`); `none` for an option with a value that is not given. -/
structure Options where
  /-- folder, stem and extension (if any) of the program -/
  dir : Path
  stem : String
  ext : Option String
  /-- the program is a file, the output path is a folder -/
  isFile : Bool
  isDir : Bool
  output : Path
  o0 : Bool
  o1 : Bool
  o2 : Bool
  o2round : Option String
  sanity : Option String
  prime : Option String
  r1cs : Bool
  sym : Bool
  json : Bool
  jsonSub : Bool
  wasm : Bool
  wat : Bool
  c : Bool
  noAsm : Bool

/-- input_user.rs:263-264 `SimplificationStyle`. -/
inductive Style where
  | o0
  | o1
  | o2 (rounds : Nat)
  deriving DecidableEq, Repr

/-- The sign that `usize::from_str_radix` (called in input_user.rs:276) lets pass. -/
def dropPlus : List Char → List Char
  | '+' :: t => t
  | t => t

/-- `usize::from_str_radix(_, 10)` on a 64-bit machine: an optional `+`, then at least one digit, no overflow. -/
def parseUsize (s : String) : Option Nat :=
  match JsonOut.natOf (dropPlus s.toList) with
  | some n => if n < 2 ^ 64 then some n else none
  | none => none

/-- input_user.rs:265-285 `get_simplification_style`. -/
def style (o : Options) : Option Style :=
  match o.o0, o.o1, o.o2round, o.o2 with
  | true, _, _, _ => some .o0
  | _, true, _, _ => some .o1
  | _, _, some r, _ =>
    match parseUsize r with
    | some n => if n = 0 then some .o1 else some (.o2 n)
    | none => none
  | false, false, none, true => some (.o2 (2 ^ 64 - 1))
  | false, false, none, false => some .o1

/-- input_user.rs:289-311 `get_sanity_check_style`. -/
def sanity (o : Options) : Option Nat :=
  match o.sanity with
  | some v => if v = "0" then some 0 else if v = "1" then some 1 else if v = "2" then some 2 else if v = "3" then some 3 else none
  | none => some 2

/-- input_user.rs:371-395 `get_prime`. -/
def prime (o : Options) : Option String :=
  match o.prime with
  | some v =>
    if v = "bn128" ∨ v = "bls12381" ∨ v = "goldilocks" ∨ v = "grumpkin" ∨ v = "pallas" ∨ v = "vesta" ∨ v = "secq256r1" ∨ v = "bls12377"
    then some v else none
  | none => some "bn128"

/-- program_structure/src/utils/constants.rs:28-40 `UsefulConstants::new`; `none` where it panics. -/
def constant (p : String) : Option Nat :=
  if p = "bn128" then some 21888242871839275222246405745257275088548364400416034343698204186575808495617
  else if p = "bls12381" then some 52435875175126190479447740508185965837690552500527637822603658699938581184513
  else if p = "goldilocks" then some 18446744069414584321
  else if p = "grumpkin" then some 21888242871839275222246405745257275088696311157297823662689037894645226208583
  else if p = "pallas" then some 28948022309329048855892746252171976963363056481941560715954676764349967630337
  else if p = "vesta" then some 28948022309329048855892746252171976963363056481941647379679742748393362948097
  else if p = "secq256r1" then some 115792089210356248762697446949407573530086143415290314195533631308867097853951
  else if p = "bls12377" then some 8444461749428370424248824938781546531375899335154063827935233455917409239041
  else none

/-- input_user.rs:59-66: the name of the files. -/
def baseName (o : Options) : String :=
  if o.c && (o.stem == "main" || o.stem == "fr" || o.stem == "calcwit") then o.stem ++ "_c" else o.stem

/-- input_user.rs:119-124 `build_folder`. -/
def folder (out : Path) (name ext : String) : Path := out ++ [name ++ "_" ++ ext]

/-- input_user.rs:126-130 `build_output`. -/
def outFile (out : Path) (name ext : String) : Path := out ++ [name ++ "." ++ ext]

/-- The fields of `Input` (input_user.rs:3-39) that the later stages use. -/
structure Config where
  name : String
  out : Path
  rounds : Nat
  fast : Bool
  reduced : Bool
  sanity : Nat
  prime : String

/-- input_user.rs:53-117 `Input::new`. -/
def config (o : Options) : Option Config :=
  if o.isFile then
    if o.isDir then
      match style o with
      | none => none
      | some st =>
        match sanity o with
        | none => none
        | some sa =>
          match prime o with
          | none => none
          | some p => some ⟨baseName o, o.output, match st with | .o2 r => r | _ => 0, st == .o0, st == .o1, sa, p⟩
    else none
  else none

/-! ### Actions -/

/-- An action on the file system: write a file, make a folder anew, remove a file. -/
inductive Act where
  | write (p : Path)
  | anew (d : Path)
  | remove (p : Path)
  deriving DecidableEq, Repr

/-- A step of the compiler: an action, or a stage with its result. -/
inductive Step where
  | act (a : Act)
  | stage (ok : Bool)

/-- `?` and `unwrap`: steps until one fails. -/
def run (ok : Act → Bool) : List Step → List Act × Bool
  | [] => ([], true)
  | .stage b :: l => if b then run ok l else ([], false)
  | .act a :: l =>
    if ok a then
      let r := run ok l
      (a :: r.1, r.2)
    else ([], false)

/-- The files before and after. -/
def apply (fs : List Path) : Act → List Path
  | .write p => p :: fs.filter fun q => q ≠ p
  | .anew d => fs.filter fun q => !d.isPrefixOf q
  | .remove p => fs.filter fun q => q ≠ p

/-- The results of the stages. -/
structure Stages where
  parse : Bool
  types : Bool
  execution : Bool
  circuit : Bool
  wasm : Bool

/-- execution_user.rs:27-57 `execute_project` with constraint_generation/src/lib.rs:46-79 `build_circuit` (the file of substitutions is
created by json_writer.rs on either branch). -/
def execSteps (o : Options) (c : Config) (s : Stages) : List Step :=
  [.stage s.execution] ++
  (if o.jsonSub then [.act (.write (outFile c.out (c.name ++ "_substitutions") "json"))] else []) ++
  (if o.r1cs then [.act (.write (outFile c.out c.name "r1cs"))] else []) ++
  (if o.sym then [.act (.write (outFile c.out c.name "sym"))] else []) ++
  (if o.json then [.act (.write (outFile c.out (c.name ++ "_constraints") "json"))] else [])

/-- compiler_interface.rs:39-50 `write_c` with circuit.rs:596-612 `produce_c` and the functions `generate_*` of
c_code_generator.rs:946-1252. -/
def cSteps (o : Options) (c : Config) : List Step :=
  let d := folder c.out c.name "cpp"
  [.act (.anew d), .act (.write (outFile d c.name "dat")), .act (.write (outFile d c.name "cpp")), .act (.write (d ++ ["main.cpp"])),
    .act (.write (d ++ ["circom.hpp"])), .act (.write (d ++ ["fr.hpp"])), .act (.write (d ++ ["calcwit.hpp"]))] ++
  (if c.prime ≠ "goldilocks" then [.act (.write (d ++ ["fr.cpp"]))] else []) ++
  [.act (.write (d ++ ["calcwit.cpp"]))] ++
  (if c.prime ≠ "goldilocks" ∧ ¬ o.noAsm then [.act (.write (d ++ ["fr.asm"]))] else []) ++
  [.act (.write (d ++ ["Makefile"]))] ++
  (if c.prime = "goldilocks" then [.act (.write (d ++ ["json2bin64.cpp"]))] else [])

/-- compiler_interface.rs:28-37 `write_wasm` with circuit.rs:613-619 `produce_wasm` (wasm_code_generator.rs:1786-1818). -/
def watSteps (c : Config) : List Step :=
  let d := folder c.out c.name "js"
  [.act (.anew d), .act (.write (outFile d c.name "wat")), .act (.write (d ++ ["generate_witness.js"])),
    .act (.write (d ++ ["witness_calculator.js"]))]

/-- compilation_user.rs:31-139 `compile`. -/
def compileSteps (o : Options) (c : Config) (s : Stages) : List Step :=
  let d := folder c.out c.name "js"
  if o.c || o.wat || o.wasm then
    [.stage s.circuit] ++
    (if o.c then cSteps o c else []) ++
    (match o.wat, o.wasm with
      | true, true => watSteps c ++ [.stage s.wasm, .act (.write (outFile d c.name "wasm"))]
      | false, true =>
        watSteps c ++ (if s.wasm then [.act (.write (outFile d c.name "wasm")), .act (.remove (outFile d c.name "wat"))]
          else [.act (.remove (outFile d c.name "wat")), .stage false])
      | true, false => watSteps c
      | false, false => [])
  else []

/-- main.rs:23-70 `start`. -/
def start (o : Options) (s : Stages) : List Step :=
  match config o with
  | none => [.stage false]
  | some c => [.stage s.parse, .stage s.types] ++ execSteps o c s ++ compileSteps o c s

end Verif.Driver
