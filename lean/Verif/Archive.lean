import Mathlib.Data.List.Basic

/-!
# The program archive

Model of the step from the parsed files to the `ProgramArchive`: the numbering of the nodes
(`program_structure/src/abstract_syntax_tree/statement_impl.rs:206-366`, `expression_impl.rs:240-369`), the tables of wires
(`template_data.rs:160-238`, `bus_data.rs:118-164`), the merging of the definitions (`program_merger.rs`) and
`ProgramArchive::new` (`program_archive.rs:29-78`).

The syntax tree is that of `ast.rs` without operators and literals of texts, and with `Meta` reduced to the number, the file and the
position.  Hash maps are lists of pairs with each key once.
-/

namespace Verif.Archive

/-- ast.rs:23-33 `Meta`; `start` stands for the fields that the numbering leaves alone. -/
structure Meta where
  elem : Nat
  file : Option Nat
  start : Nat
  deriving DecidableEq, Repr

mutual
/-- ast.rs:286-346 `Expression`. -/
inductive Ex where
  | infix (m : Meta) (l r : Ex)
  | prefix (m : Meta) (e : Ex)
  | switch (m : Meta) (c t f : Ex)
  | parallel (m : Meta) (e : Ex)
  | var (m : Meta) (name : String) (access : List Acc)
  | num (m : Meta) (v : Int)
  | call (m : Meta) (id : String) (args : List Ex)
  | bus (m : Meta) (id : String) (args : List Ex)
  | anon (m : Meta) (id : String) (params signals : List Ex)
  | arr (m : Meta) (values : List Ex)
  | tuple (m : Meta) (values : List Ex)
  | uniform (m : Meta) (value dim : Ex)

/-- ast.rs:348-352 `Access`. -/
inductive Acc where
  | comp (name : String)
  | idx (e : Ex)
end

/-- `LogArgument` of ast.rs. -/
inductive LogArg where
  | str (s : String)
  | exp (e : Ex)

/-- ast.rs:267-272 `SignalType`. -/
inductive Sig where
  | output | input | intermediate
  deriving DecidableEq, Repr

/-- ast.rs:277-284 `VariableType`. -/
inductive VType where
  | var
  | signal (s : Sig) (tags : List String)
  | component
  | anonymous
  | bus (name : String) (s : Sig) (tags : List String)
  deriving DecidableEq, Repr

/-- ast.rs:200-265 `Statement`. -/
inductive Stmt where
  | cond (m : Meta) (c : Ex) (t : Stmt) (f : Option Stmt)
  | loop (m : Meta) (c : Ex) (b : Stmt)
  | ret (m : Meta) (e : Ex)
  | init (m : Meta) (t : VType) (l : List Stmt)
  | decl (m : Meta) (t : VType) (name : String) (dims : List Ex)
  | subst (m : Meta) (x : String) (access : List Acc) (e : Ex)
  | mult (m : Meta) (l r : Ex)
  | under (m : Meta) (e : Ex)
  | ceq (m : Meta) (l r : Ex)
  | log (m : Meta) (args : List LogArg)
  | block (m : Meta) (l : List Stmt)
  | assert (m : Meta) (e : Ex)

/-! ### Numbering -/

/-- The first two lines of both `fill`s (statement_impl.rs:209-210, expression_impl.rs:243-244) and the `meta.set_file_id(file_id)` with
which each `fill_…` begins. -/
def Meta.set (m : Meta) (f n : Nat) : Meta := { m with elem := n, file := some f }

mutual
/-- expression_impl.rs:240-369 `fill` and its auxiliary functions. -/
def fillE (f : Nat) : Nat → Ex → Ex × Nat
  | n, .infix m l r =>
    let p := fillE f (n + 1) l
    let q := fillE f p.2 r
    (.infix (m.set f n) p.1 q.1, q.2)
  | n, .prefix m e =>
    let p := fillE f (n + 1) e
    (.prefix (m.set f n) p.1, p.2)
  | n, .switch m c t e =>
    let p := fillE f (n + 1) c
    let q := fillE f p.2 t
    let r := fillE f q.2 e
    (.switch (m.set f n) p.1 q.1 r.1, r.2)
  | n, .parallel m e =>
    let p := fillE f (n + 1) e
    (.parallel (m.set f n) p.1, p.2)
  | n, .var m x access =>
    let p := fillA f (n + 1) access
    (.var (m.set f n) x p.1, p.2)
  | n, .num m v => (.num (m.set f n) v, n + 1)
  | n, .call m x args =>
    let p := fillL f (n + 1) args
    (.call (m.set f n) x p.1, p.2)
  | n, .bus m x args =>
    let p := fillL f (n + 1) args
    (.bus (m.set f n) x p.1, p.2)
  | n, .anon m x params signals =>
    let p := fillL f (n + 1) params
    let q := fillL f p.2 signals
    (.anon (m.set f n) x p.1 q.1, q.2)
  | n, .arr m values =>
    let p := fillL f (n + 1) values
    (.arr (m.set f n) p.1, p.2)
  | n, .tuple m values =>
    let p := fillL f (n + 1) values
    (.tuple (m.set f n) p.1, p.2)
  | n, .uniform m v d =>
    let p := fillE f (n + 1) v
    let q := fillE f p.2 d
    (.uniform (m.set f n) p.1 q.1, q.2)

/-- The loops over expressions, e.g. expression_impl.rs:321-323. -/
def fillL (f : Nat) : Nat → List Ex → List Ex × Nat
  | n, [] => ([], n)
  | n, e :: l =>
    let p := fillE f n e
    let q := fillL f p.2 l
    (p.1 :: q.1, q.2)

/-- The loops over accesses, expression_impl.rs:276-280 and statement_impl.rs:311-315. -/
def fillA (f : Nat) : Nat → List Acc → List Acc × Nat
  | n, [] => ([], n)
  | n, .comp x :: l =>
    let q := fillA f n l
    (.comp x :: q.1, q.2)
  | n, .idx e :: l =>
    let p := fillE f n e
    let q := fillA f p.2 l
    (.idx p.1 :: q.1, q.2)
end

/-- statement_impl.rs:342-349 `fill_log_call`. -/
def fillLog (f : Nat) : Nat → List LogArg → List LogArg × Nat
  | n, [] => ([], n)
  | n, .str s :: l =>
    let q := fillLog f n l
    (.str s :: q.1, q.2)
  | n, .exp e :: l =>
    let p := fillE f n e
    let q := fillLog f p.2 l
    (.exp p.1 :: q.1, q.2)

mutual
/-- statement_impl.rs:206-366 `fill` and its auxiliary functions. -/
def fillS (f : Nat) : Nat → Stmt → Stmt × Nat
  | n, .cond m c t e =>
    let p := fillE f (n + 1) c
    let q := fillS f p.2 t
    let r := fillO f q.2 e
    (.cond (m.set f n) p.1 q.1 r.1, r.2)
  | n, .loop m c b =>
    let p := fillE f (n + 1) c
    let q := fillS f p.2 b
    (.loop (m.set f n) p.1 q.1, q.2)
  | n, .ret m e =>
    let p := fillE f (n + 1) e
    (.ret (m.set f n) p.1, p.2)
  | n, .init m t l =>
    let p := fillSs f (n + 1) l
    (.init (m.set f n) t p.1, p.2)
  | n, .decl m t x dims =>
    let p := fillL f (n + 1) dims
    (.decl (m.set f n) t x p.1, p.2)
  | n, .subst m x access e =>
    let p := fillE f (n + 1) e
    let q := fillA f p.2 access
    (.subst (m.set f n) x q.1 p.1, q.2)
  | n, .mult m l r =>
    let p := fillE f (n + 1) r
    let q := fillE f p.2 l
    (.mult (m.set f n) q.1 p.1, q.2)
  | n, .under m e =>
    let p := fillE f (n + 1) e
    (.under (m.set f n) p.1, p.2)
  | n, .ceq m l r =>
    let p := fillE f (n + 1) l
    let q := fillE f p.2 r
    (.ceq (m.set f n) p.1 q.1, q.2)
  | n, .log m args =>
    let p := fillLog f (n + 1) args
    (.log (m.set f n) p.1, p.2)
  | n, .block m l =>
    let p := fillSs f (n + 1) l
    (.block (m.set f n) p.1, p.2)
  | n, .assert m e =>
    let p := fillE f (n + 1) e
    (.assert (m.set f n) p.1, p.2)

/-- The `else` branch, statement_impl.rs:256-258. -/
def fillO (f : Nat) : Nat → Option Stmt → Option Stmt × Nat
  | n, none => (none, n)
  | n, some s =>
    let p := fillS f n s
    (some p.1, p.2)

/-- The loops over statements, statement_impl.rs:285-287 and 353-355. -/
def fillSs (f : Nat) : Nat → List Stmt → List Stmt × Nat
  | n, [] => ([], n)
  | n, s :: l =>
    let p := fillS f n s
    let q := fillSs f p.2 l
    (p.1 :: q.1, q.2)
end

/-! ### Tables of wires -/

/-- A table with each key once: `HashMap`. -/
abbrev Table (α : Type) := List (String × α)

/-- `HashMap::insert`. -/
def Table.insert {α : Type} (t : Table α) (k : String) (v : α) : Table α :=
  (k, v) :: t.filter fun e => e.1 ≠ k

/-- `HashMap::get`. -/
def Table.get {α : Type} : Table α → String → Option α
  | [], _ => none
  | e :: t, k => if e.1 = k then some e.2 else Table.get t k

/-- `HashMap::contains_key`. -/
def Table.has {α : Type} (t : Table α) (k : String) : Bool := (t.get k).isSome

/-- wire_data.rs:17-21 `WireData`: signal (`none`) or the name of a bus, number of dimensions, tags. -/
structure Wire where
  bus : Option String
  dim : Nat
  tags : List String
  deriving DecidableEq, Repr

/-- The four tables filled by `fill_inputs_and_outputs`. -/
structure Ports where
  inputs : Table Wire
  outputs : Table Wire
  inputDecls : List (String × Nat)
  outputDecls : List (String × Nat)

/-- template_data.rs:188-234: a declaration. -/
def Ports.declare (p : Ports) (t : VType) (x : String) (dim : Nat) : Ports :=
  match t with
  | .signal .input tags => { p with inputs := p.inputs.insert x ⟨none, dim, tags⟩, inputDecls := p.inputDecls ++ [(x, dim)] }
  | .signal .output tags => { p with outputs := p.outputs.insert x ⟨none, dim, tags⟩, outputDecls := p.outputDecls ++ [(x, dim)] }
  | .bus b .input tags => { p with inputs := p.inputs.insert x ⟨some b, dim, tags⟩, inputDecls := p.inputDecls ++ [(x, dim)] }
  | .bus b .output tags => { p with outputs := p.outputs.insert x ⟨some b, dim, tags⟩, outputDecls := p.outputDecls ++ [(x, dim)] }
  | _ => p

mutual
/-- template_data.rs:160-238 `fill_inputs_and_outputs`. -/
def ports : Stmt → Ports → Ports
  | .cond _ _ t f, p => portsO f (ports t p)
  | .block _ l, p => portsL l p
  | .loop _ _ b, p => ports b p
  | .init _ _ l, p => portsL l p
  | .decl _ t x dims, p => p.declare t x dims.length
  | _, p => p

def portsO : Option Stmt → Ports → Ports
  | none, p => p
  | some s, p => ports s p

def portsL : List Stmt → Ports → Ports
  | [], p => p
  | s :: l, p => portsL l (ports s p)
end

/-- The two tables filled by `fill_fields`. -/
structure Fields where
  fields : Table Wire
  decls : List (String × Nat)

/-- bus_data.rs:130-161: a declaration. -/
def Fields.declare (p : Fields) (t : VType) (x : String) (dim : Nat) : Fields :=
  match t with
  | .signal .intermediate tags => ⟨p.fields.insert x ⟨none, dim, tags⟩, p.decls ++ [(x, dim)]⟩
  | .bus b .intermediate tags => ⟨p.fields.insert x ⟨some b, dim, tags⟩, p.decls ++ [(x, dim)]⟩
  | _ => p

mutual
/-- bus_data.rs:118-164 `fill_fields`. -/
def fields : Stmt → Fields → Fields
  | .block _ l, p => fieldsL l p
  | .init _ _ l, p => fieldsL l p
  | .decl _ t x dims, p => p.declare t x dims.length
  | _, p => p

def fieldsL : List Stmt → Fields → Fields
  | [], p => p
  | s :: l, p => fieldsL l (fields s p)
end

/-! ### Merging -/

/-- What a definition defines; the flags of a template are `parallel`, `is_custom_gate` and `is_extern_c`. -/
inductive Kind where
  | template (parallel custom externC : Bool)
  | function
  | bus
  deriving DecidableEq, Repr

/-- ast.rs:140-166 `Definition`; `start` stands for the positions. -/
structure Def where
  kind : Kind
  name : String
  args : List String
  body : Stmt
  start : Nat

/-- template_data.rs:10-25 `TemplateData`. -/
structure TemplateData where
  file : Nat
  body : Stmt
  params : List String
  parallel : Bool
  custom : Bool
  externC : Bool
  ports : Ports

/-- function_data.rs:9-16 `FunctionData`. -/
structure FunctionData where
  file : Nat
  body : Stmt
  params : List String

/-- bus_data.rs:9-19 `BusData`. -/
structure BusData where
  file : Nat
  body : Stmt
  params : List String
  fields : Fields

/-- program_merger.rs:9-14 `Merger`. -/
structure Merger where
  fresh : Nat
  functions : Table FunctionData
  templates : Table TemplateData
  buses : Table BusData

/-- The report "Duplicated callable symbol" (program_merger.rs:90-101): file, position and name. -/
structure Report where
  file : Nat
  start : Nat
  name : String
  deriving DecidableEq, Repr

/-- `contains_function || contains_template || contains_bus` (program_merger.rs:36,56,73). -/
def Merger.taken (g : Merger) (x : String) : Bool := g.functions.has x || g.templates.has x || g.buses.has x

/-- program_merger.rs:34-101: one definition (template_data.rs:28-61, function_data.rs:19-30, bus_data.rs:22-45 `new`). -/
def addOne (file : Nat) (s : Merger × List Report) (d : Def) : Merger × List Report :=
  if s.1.taken d.name then (s.1, s.2 ++ [⟨file, d.start, d.name⟩])
  else
    let p := fillS file s.1.fresh d.body
    match d.kind with
    | .template par custom ext =>
      ({ s.1 with fresh := p.2
                  templates := s.1.templates.insert d.name ⟨file, p.1, d.args, par, custom, ext, ports p.1 ⟨[], [], [], []⟩⟩ }, s.2)
    | .function => ({ s.1 with fresh := p.2, functions := s.1.functions.insert d.name ⟨file, p.1, d.args⟩ }, s.2)
    | .bus => ({ s.1 with fresh := p.2, buses := s.1.buses.insert d.name ⟨file, p.1, d.args, fields p.1 ⟨[], []⟩⟩ }, s.2)

/-- program_merger.rs:31-104 `add_definitions`: the reports of one file. -/
def addDefinitions (g : Merger) (file : Nat) (ds : List Def) : Merger × List Report := ds.foldl (addOne file) (g, [])

/-- program_archive.rs:14-27 `ProgramArchive` (without the sets of keys, which repeat the tables, and the file library). -/
structure Program where
  idMax : Nat
  functions : Table FunctionData
  templates : Table TemplateData
  buses : Table BusData
  publicInputs : List String
  main : Ex

/-- program_archive.rs:37-43: the loop over the files. -/
def mergeAll (contents : List (Nat × List Def)) : Merger × List Report :=
  contents.foldl (fun s c =>
    let r := addDefinitions s.1 c.1 c.2
    (r.1, s.2 ++ r.2)) (⟨0, [], [], []⟩, [])

/-- program_archive.rs:29-78 `ProgramArchive::new`. -/
def new (fileMain : Nat) (pub : List String) (main : Ex) (contents : List (Nat × List Def)) : Except (List Report) Program :=
  let s := mergeAll contents
  let p := fillE fileMain s.1.fresh main
  if s.2.isEmpty then .ok ⟨p.2, s.1.functions, s.1.templates, s.1.buses, pub, p.1⟩ else .error s.2

end Verif.Archive
