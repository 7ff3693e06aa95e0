import Verif.Simplification
import Verif.R1cs

/-!
# Model of the template graph (`dag/src`) and of the constraint list export (`constraint_list/src`)

Also the parts of `constraint_generation/src/execution_data/executed_template.rs` that fill the graph.

* Names are lists of characters; `format!("{}.{}", a, b)` is `a ++ '.' :: b`.
* `HashMap<String, usize>` is an association list without repeated keys.  The loops over it only feed sorted vectors or other maps.
* `HashSet<usize>` is a list without repetitions.
* The recursive tree visits take a number of remaining levels; running out is the error `outOfFuel`.
* Not modelled: parallel flags, labels of the entry edge other than `main`, the subcomponent index counters, logging.
-/

namespace Verif.Dag
open Verif.ModArith (Res Fail)
open Verif.Algebra

abbrev Name := List Char

/-- Constraints over signal numbers. -/
abbrev C := Constraint Nat

/-! ## Maps and sets -/

/-- `HashMap<String, usize>`. -/
abbrev NMap := List (Name × Nat)

/-- `HashMap::get`. -/
def NMap.get : NMap → Name → Option Nat
  | [], _ => none
  | (k', v) :: m, k => if k' = k then some v else NMap.get m k

/-- `HashMap::insert`: overwrites the value of a present key. -/
def NMap.insert : NMap → Name → Nat → NMap
  | [], k, v => [(k, v)]
  | (k', v') :: m, k, v => if k' = k then (k, v) :: m else (k', v') :: NMap.insert m k v

/-- `Option::unwrap`. -/
def unwrap {α : Type} : Option α → Res α
  | none => .error .panic
  | some a => .ok a

/-- `HashSet::insert`. -/
def setInsert (s : List Nat) (x : Nat) : List Nat := if s.contains x then s else s ++ [x]

/-! ## Names of the scalar signals of a wire -/

/-- Declared wires, also the fields of a bus, with bus types resolved (executed_template.rs `WireCollector`, `BusConnexion`,
executed_bus.rs `fields`): name, array dimensions and, for a bus, its fields. -/
inductive Wires where
  | nil
  | signal (name : Name) (dims : List Nat) (rest : Wires)
  | bus (name : Name) (dims : List Nat) (fields : Wires) (rest : Wires)
  deriving DecidableEq, Repr

/-- Decimal digits of an index (`format!("{}", index)`). -/
def digits (n : Nat) : Name := Nat.toDigits 10 n

/-- executed_template.rs:571-589 `generate_symbols` and the array part of 592-616: the names in the order they are added. -/
def arrayNames (name : Name) : List Nat → List Name
  | [] => [name]
  | d :: ds => (List.range d).flatMap fun i => arrayNames (name ++ '[' :: digits i ++ [']']) ds

/-- executed_template.rs:270-311, 571-616: names of all scalar signals of the wires, with a prefix. -/
def Wires.names (pre : Name) : Wires → List Name
  | .nil => []
  | .signal n ds rest => arrayNames (pre ++ n) ds ++ rest.names pre
  | .bus n ds fields rest => ((arrayNames (pre ++ n) ds).flatMap fun b => fields.names (b ++ ['.'])) ++ rest.names pre

/-- executed_bus.rs `build_bus_info` / executed_template.rs:458,472: number of scalar signals computed from the dimensions. -/
def Wires.size : Wires → Nat
  | .nil => 0
  | .signal _ ds rest => ds.foldl (· * ·) 1 + rest.size
  | .bus _ ds fields rest => ds.foldl (· * ·) fields.size + rest.size

/-- executed_template.rs:452-557: the `dag_local_id` given to each top-level wire by the witness code generator, with its size. -/
def Wires.localIds (start : Nat) : Wires → List (Name × Nat × Nat)
  | .nil => []
  | .signal n ds rest => (n, start, ds.foldl (· * ·) 1) :: rest.localIds (start + ds.foldl (· * ·) 1)
  | .bus n ds fields rest => (n, start, ds.foldl (· * ·) fields.size) :: rest.localIds (start + ds.foldl (· * ·) fields.size)

/-- Names of the top-level wires. -/
def Wires.ids : Wires → List Name
  | .nil => []
  | .signal n _ rest => n :: rest.ids
  | .bus n _ _ rest => n :: rest.ids

/-- The wires of one list followed by those of another. -/
def Wires.append : Wires → Wires → Wires
  | .nil, w => w
  | .signal n ds rest, w => .signal n ds (rest.append w)
  | .bus n ds f rest, w => .bus n ds f (rest.append w)

/-! ## Nodes and edges -/

/-- dag/src/lib.rs:88-95 `Edge` (component numbers kept). -/
structure Edge where
  label : Name
  goesTo : Nat
  inNumber : Nat
  outNumber : Nat
  inComponent : Nat
  outComponent : Nat
  deriving DecidableEq, Repr

/-- dag/src/lib.rs:135-157 `Node`; of the entry edge only the numbers are kept. -/
structure Node where
  name : Name
  parameters : List Int
  entryIn : Nat
  entryOut : Nat
  entryOutComponent : Nat
  numberOfSignals : Nat
  numberOfComponents : Nat
  intermediatesLength : Nat
  publicInputsLength : Nat
  inputsLength : Nat
  outputsLength : Nat
  correspondence : NMap
  ordered : List Name
  locals : List Nat
  reachables : List Nat
  forbiddenIfMain : List Nat
  ioSignals : List Nat
  constraints : List C
  isCustomGate : Bool

/-- dag/src/lib.rs:160-177 `Node::new`. -/
def Node.new (name : Name) (parameters : List Int) (isCustomGate : Bool) : Node where
  name := name
  parameters := parameters
  entryIn := 0
  entryOut := 0
  entryOutComponent := 0
  numberOfSignals := 0
  numberOfComponents := 1
  intermediatesLength := 0
  publicInputsLength := 0
  inputsLength := 0
  outputsLength := 0
  correspondence := []
  ordered := []
  locals := []
  reachables := []
  forbiddenIfMain := [0]
  ioSignals := []
  constraints := []
  isCustomGate := isCustomGate

/-- dag/src/lib.rs:179-192 `Node::add_input`. -/
def Node.addInput (n : Node) (name : Name) (isPublic : Bool) : Node :=
  let id := n.numberOfSignals + 1
  { n with
    ioSignals := n.ioSignals ++ [id]
    publicInputsLength := n.publicInputsLength + (if isPublic then 1 else 0)
    correspondence := NMap.insert n.correspondence name id
    locals := setInsert n.locals id
    reachables := setInsert n.reachables id
    numberOfSignals := n.numberOfSignals + 1
    entryOut := n.entryOut + 1
    inputsLength := n.inputsLength + 1
    forbiddenIfMain := if isPublic then setInsert n.forbiddenIfMain id else n.forbiddenIfMain }

/-- dag/src/lib.rs:194-204 `Node::add_output`. -/
def Node.addOutput (n : Node) (name : Name) : Node :=
  let id := n.numberOfSignals + 1
  { n with
    ioSignals := n.ioSignals ++ [id]
    correspondence := NMap.insert n.correspondence name id
    forbiddenIfMain := setInsert n.forbiddenIfMain id
    locals := setInsert n.locals id
    reachables := setInsert n.reachables id
    numberOfSignals := n.numberOfSignals + 1
    entryOut := n.entryOut + 1
    outputsLength := n.outputsLength + 1 }

/-- dag/src/lib.rs:206-214 `Node::add_intermediate`. -/
def Node.addIntermediate (n : Node) (name : Name) : Node :=
  let id := n.numberOfSignals + 1
  { n with
    correspondence := NMap.insert n.correspondence name id
    locals := setInsert n.locals id
    reachables := setInsert n.reachables id
    numberOfSignals := n.numberOfSignals + 1
    entryOut := n.entryOut + 1
    intermediatesLength := n.intermediatesLength + 1 }

/-- dag/src/lib.rs:216-218 `add_ordered_signal`. -/
def Node.addOrdered (n : Node) (name : Name) : Node := { n with ordered := n.ordered ++ [name] }

/-- dag/src/lib.rs:220-222 `add_constraint`. -/
def Node.addConstraint (n : Node) (c : C) : Node := { n with constraints := n.constraints ++ [c] }

/-- dag/src/lib.rs:297-302 `DAG`. -/
structure Graph where
  nodes : List Node
  adjacency : List (List Edge)

/-- dag/src/lib.rs:319-326 `DAG::new`. -/
def Graph.new : Graph := ⟨[], []⟩

/-- dag/src/lib.rs:497-499 `get_mut_main` followed by an update. -/
def Graph.updateMain (d : Graph) (f : Node → Node) : Graph :=
  match d.nodes.getLast? with
  | none => d
  | some n => { d with nodes := d.nodes.dropLast ++ [f n] }

/-- dag/src/lib.rs:373-386 `add_node`. -/
def Graph.addNode (d : Graph) (name : Name) (parameters : List Int) (isCustomGate : Bool) : Graph :=
  ⟨d.nodes ++ [Node.new name parameters isCustomGate], d.adjacency ++ [[]]⟩

/-- dag/src/lib.rs:388-422: the calls that update the last node. -/
def Graph.addInput (d : Graph) (name : Name) (isPublic : Bool) : Graph := d.updateMain fun n => n.addInput name isPublic
/-- dag/src/lib.rs:394-398. -/
def Graph.addOutput (d : Graph) (name : Name) : Graph := d.updateMain fun n => n.addOutput name
/-- dag/src/lib.rs:400-404. -/
def Graph.addIntermediate (d : Graph) (name : Name) : Graph := d.updateMain fun n => n.addIntermediate name
/-- dag/src/lib.rs:406-410. -/
def Graph.addOrdered (d : Graph) (name : Name) : Graph := d.updateMain fun n => n.addOrdered name
/-- dag/src/lib.rs:412-416. -/
def Graph.addConstraint (d : Graph) (c : C) : Graph := d.updateMain fun n => n.addConstraint c

/-- dag/src/lib.rs:505-507 `main_id` (on an empty graph the subtraction overflows in the code; never called then). -/
def Graph.mainId (d : Graph) : Nat := d.nodes.length - 1

/-- dag/src/lib.rs:352-362: the signals of a subcomponent entered in the table of its parent. -/
def addChildNames (child : Node) (label : Name) (inNumber : Nat) (parent : Node) : Node :=
  child.correspondence.foldl (fun n e =>
    if child.locals.contains e.2 then
      { n with
        correspondence := NMap.insert n.correspondence (label ++ '.' :: e.1) (inNumber + e.2)
        reachables := if e.2 ≤ child.inputsLength + child.outputsLength then setInsert n.reachables (inNumber + e.2) else n.reachables }
    else n) parent

/-- dag/src/lib.rs:328-371 `add_edge`; a target that is not an earlier node is ignored. -/
def Graph.addEdge (d : Graph) (target : Nat) (label : Name) : Graph :=
  if target < d.mainId then
    match d.nodes[target]?, d.nodes.getLast? with
    | some child, some parent =>
      let edge : Edge := {
        label := label
        goesTo := target
        inNumber := parent.numberOfSignals
        outNumber := parent.numberOfSignals + child.numberOfSignals
        inComponent := parent.numberOfComponents
        outComponent := parent.numberOfComponents + child.numberOfComponents }
      let parent' := { parent with
        numberOfSignals := parent.numberOfSignals + child.numberOfSignals
        entryOut := parent.entryOut + child.numberOfSignals
        numberOfComponents := parent.numberOfComponents + child.numberOfComponents
        entryOutComponent := parent.entryOutComponent + child.numberOfComponents }
      ⟨d.nodes.dropLast ++ [addChildNames child label edge.inNumber parent'],
        d.adjacency.dropLast ++ [(d.adjacency.getLast?.getD []) ++ [edge]]⟩
    | _, _ => d
  else d

/-! ## Filling the graph from the executed templates -/

/-- The part of an executed template (executed_template.rs `ExecutedTemplate`) that goes into the graph.  `inputs` are split into public
and private ones as the two loops of `build_wires` do; `connexions` are the subcomponents in the order after the sort of 326-335. -/
structure Template where
  name : Name
  parameters : List Int
  isCustomGate : Bool
  outputs : Wires
  publicInputs : Wires
  privateInputs : Wires
  intermediates : Wires
  ordered : List Name
  connexions : List (Name × Nat)
  constraints : List (Constraint Name)

/-- executed_template.rs:270-311 `build_wires`. -/
def buildWires (d : Graph) (t : Template) : Graph :=
  let d := (t.outputs.names []).foldl Graph.addOutput d
  let d := (t.publicInputs.names []).foldl (fun d n => d.addInput n true) d
  let d := (t.privateInputs.names []).foldl (fun d n => d.addInput n false) d
  (t.intermediates.names []).foldl Graph.addIntermediate d

/-- executed_template.rs:313-323 `build_ordered_signals`. -/
def buildOrdered (d : Graph) (t : Template) : Graph := t.ordered.foldl Graph.addOrdered d

/-- The `dag_offset`, `dag_component_offset`, `dag_jump` recorded for the witness code (executed_template.rs:339-345). -/
structure Jump where
  offset : Nat
  componentOffset : Nat
  jump : Nat
  componentJump : Nat
  deriving DecidableEq, Repr

/-- executed_template.rs:513 `get_entry` of the last node: `out_number` and `out_component_number`. -/
def Graph.entryOuts (d : Graph) : Nat × Nat :=
  match d.nodes.getLast? with
  | none => (0, 0)
  | some n => (n.entryOut, n.entryOutComponent)

/-- executed_template.rs:339-345 in `build_connexions`: one subcomponent. -/
def addConnexion (acc : Graph × List Jump) (cnn : Name × Nat) : Graph × List Jump :=
  let (d, jumps) := acc
  let before := d.entryOuts
  let d := d.addEdge cnn.2 cnn.1
  let after := d.entryOuts
  (d, jumps ++ [⟨before.1, before.2, after.1 - before.1, after.2 - before.2⟩])

/-- executed_template.rs:325-348 `build_connexions`. -/
def buildConnexions (d : Graph) (t : Template) : Graph × List Jump := t.connexions.foldl addConnexion (d, [])

/-- executed_template.rs:349-361 `build_constraints`: an unknown name aborts. -/
def buildConstraints (d : Graph) (t : Template) : Res Graph :=
  t.constraints.foldlM (fun d c => do
    match d.nodes.getLast? with
    | none => .error .panic
    | some n =>
      let cc ← c.applyCorrespondence (fun s => NMap.get n.correspondence s)
      .ok (d.addConstraint cc)) d

/-- executed_template.rs:246-268 `insert_in_dag`. -/
def insertTemplate (d : Graph) (t : Template) : Res Graph :=
  let d := d.addNode t.name t.parameters t.isCustomGate
  let d := buildWires d t
  let d := buildOrdered d t
  let d := (buildConnexions d t).1
  buildConstraints d t

/-- executed_template.rs:337-347 in `build_connexions`: the offsets and jumps recorded in the template for the witness code. -/
def jumpsTemplate (d : Graph) (t : Template) : List Jump :=
  (buildConnexions (buildOrdered (buildWires (d.addNode t.name t.parameters t.isCustomGate) t) t) t).2

/-- executed_program.rs:178-180 the loop over the templates, keeping the recorded offsets of every template. -/
def buildJumps (ts : List Template) : Res (Graph × List (List Jump)) :=
  ts.foldlM (fun (acc : Graph × List (List Jump)) t => do
    let d ← insertTemplate acc.1 t
    .ok (d, acc.2 ++ [jumpsTemplate acc.1 t])) (Graph.new, [])

/-- dag/src/constraint_correctness_analysis.rs:146-157 `clean_constraints`, one node. -/
def cleanNode (n : Node) : Node :=
  { n with constraints := n.constraints.foldl (fun acc c =>
      let c := c.removeZeros
      if c.isEmpty then acc else acc ++ [c]) [] }

/-- executed_program.rs:178-180, 202: the graph handed to the exporters. -/
def buildDag (ts : List Template) : Res Graph := do
  let d ← ts.foldlM insertTemplate Graph.new
  .ok { d with nodes := d.nodes.map cleanNode }

/-! ## Visiting the component tree -/

/-- dag/src/lib.rs:21-31 `Tree` (without the field, the graph and the set `forbidden`, which nothing reads). -/
structure Tree where
  path : Name
  offset : Nat
  nodeId : Nat
  signals : List Nat
  idToName : BMap Name
  constraints : List C

/-- `Vec::sort` on signal numbers (external). -/
def sortNats (l : List Nat) : List Nat := l.insertionSort fun a b => a ≤ b

/-- The local entries of the signal table of a node. -/
def localEntries (n : Node) : List (Name × Nat) := n.correspondence.filter fun e => n.locals.contains e.2

/-- dag/src/lib.rs:34-54 `Tree::new`. -/
def Tree.new (d : Graph) : Res Tree :=
  match d.nodes.getLast? with
  | none => .error .panic
  | some root =>
    let offset := root.entryIn
    .ok {
      path := ['m', 'a', 'i', 'n']
      offset := offset
      nodeId := d.mainId
      signals := sortNats ((localEntries root).map fun e => e.2 + offset)
      idToName := (localEntries root).foldl (fun m e => BMap.insert m e.2 e.1) []
      constraints := root.constraints }

/-- dag/src/lib.rs:56-80 `Tree::go_to_subtree`. -/
def Tree.goTo (d : Graph) (current : Tree) (edge : Edge) : Res Tree :=
  match d.nodes[edge.goesTo]? with
  | none => .error .panic
  | some node =>
    let offset := current.offset + edge.inNumber
    .ok {
      path := current.path ++ '.' :: edge.label
      offset := offset
      nodeId := edge.goesTo
      signals := sortNats ((localEntries node).map fun e => e.2 + offset)
      idToName := (localEntries node).foldl (fun m e => BMap.insert m (e.2 + offset) e.1) []
      constraints := (node.constraints.filter fun c => !c.isEmpty).map fun c => c.applyOffset offset }

/-- dag/src/lib.rs:82-84 `Tree::get_edges`. -/
def Tree.edges (d : Graph) (t : Tree) : Res (List Edge) :=
  match d.adjacency[t.nodeId]? with
  | none => .error .panic
  | some es => .ok es

/-- The recursion shared by `map_tree`, `produce_tree_witness`, `visit_tree` and `write_constraint_section`: do something at the
current tree, then visit the subtrees of its edges in order. -/
def walk {σ : Type} (d : Graph) (f : σ → Tree → Res σ) : Nat → Tree → σ → Res σ
  | 0, _, _ => .error .outOfFuel
  | fuel + 1, t, s => do
    let s ← f s t
    let es ← t.edges d
    es.foldlM (fun s e => do
      let sub ← t.goTo d e
      walk d f fuel sub s) s

/-- dag/src/witness_producer.rs:3-19 `produce_witness`. -/
def produceWitness (d : Graph) : Res (List Nat) := do
  let t ← Tree.new d
  walk d (fun w t => .ok (w ++ t.signals)) d.nodes.length t [0]

/-- One line of the symbol file (constraint_writers/src/sym_writer.rs:4-9; `i64` is `Int`). -/
structure SymElem where
  original : Int
  witness : Int
  nodeId : Int
  symbol : Name
  deriving DecidableEq, Repr

/-- dag/src/sym_porting.rs:15-30 `visit_tree` at one tree. -/
def symTree (acc : List SymElem) (t : Tree) : Res (List SymElem) :=
  t.signals.foldlM (fun (acc : List SymElem) s => do
    let name ← unwrap (BMap.get t.idToName s)
    .ok (acc ++ [⟨s, s, t.nodeId, t.path ++ '.' :: name⟩])) acc

/-- dag/src/sym_porting.rs:6-13 `write`. -/
def dagSym (d : Graph) : Res (List SymElem) := do
  let t ← Tree.new d
  walk d symTree d.nodes.length t []

/-- dag/src/r1cs_porting.rs:115-135 `write_constraint_section`: constraints written and number of signals. -/
def constraintSection (d : Graph) : Res (List C × Nat) := do
  let t ← Tree.new d
  walk d (fun acc t => .ok (acc.1 ++ t.constraints, acc.2 + t.signals.length)) d.nodes.length t ([], 0)

/-! ## Handing the graph to the simplifier -/

/-- dag/src/map_to_constraint_list.rs:6-10 `CHolder`, with the other accumulators of `map_tree`. -/
structure Holder where
  witness : List Nat
  forbidden : List Nat
  linear : List C
  equalities : List C
  constantEqualities : List C
  noConstraints : Nat

/-- dag/src/map_to_constraint_list.rs:20-25. -/
def mapSignals (custom : Bool) (h : Holder) (t : Tree) : Holder :=
  t.signals.foldl (fun h s =>
    { h with witness := h.witness ++ [s], forbidden := if custom then setInsert h.forbidden s else h.forbidden }) h

/-- dag/src/map_to_constraint_list.rs:27-37. -/
def mapConstraint (field : Int) (h : Holder) (c : C) : Holder :=
  if c.isConstantEquality then { h with constantEqualities := h.constantEqualities ++ [c] }
  else if c.isEquality field then { h with equalities := h.equalities ++ [c] }
  else if c.isLinear then { h with linear := h.linear ++ [c] }
  else { h with noConstraints := h.noConstraints + 1 }

/-- dag/src/map_to_constraint_list.rs:12-44 `map_tree` at one tree. -/
def mapTree (d : Graph) (field : Int) (h : Holder) (t : Tree) : Res Holder :=
  match d.nodes[t.nodeId]? with
  | none => .error .panic
  | some node => .ok (t.constraints.foldl (mapConstraint field) (mapSignals node.isCustomGate h t))

/-- constraint_list/src/lib.rs:27-35 `EncodingNode`. -/
structure EncNode where
  id : Nat
  name : Name
  parameters : List Int
  signals : List (Name × Nat)
  ordered : List Nat
  nonLinear : List C
  isCustomGate : Bool

/-- constraint_list/src/lib.rs:37-41 `EncodingEdge`. -/
structure EncEdge where
  goesTo : Nat
  path : Name
  offset : Nat

/-- constraint_list/src/lib.rs:43-48 `DAGEncoding`. -/
structure Encoding where
  init : Nat
  noConstraints : Nat
  nodes : List EncNode
  adjacency : List (List EncEdge)

/-- dag/src/map_to_constraint_list.rs:71-104 `map_node_to_encoding`. -/
def encodeNode (id : Nat) (node : Node) : Res EncNode := do
  let ordered ← node.ordered.mapM fun s => unwrap (NMap.get node.correspondence s)
  .ok {
    id := id
    name := node.name
    parameters := node.parameters
    signals := (localEntries node).insertionSort fun a b => a.2 ≤ b.2
    ordered := ordered
    nonLinear := node.constraints.filter fun c => !c.isLinear
    isCustomGate := node.isCustomGate }

/-- dag/src/map_to_constraint_list.rs:46-69, 106-108 `produce_encoding`. -/
def encode (d : Graph) (noConstraints : Nat) : Res Encoding := do
  let nodes ← d.nodes.zipIdx.mapM fun e => encodeNode e.2 e.1
  .ok {
    init := d.mainId
    noConstraints := noConstraints
    nodes := nodes
    adjacency := d.adjacency.map fun es => es.map fun e => ⟨e.goesTo, e.label, e.inNumber⟩ }

/-- constraint_list/src/lib.rs:65-72 `EncodingIterator`. -/
structure EncIter where
  nodeId : Nat
  path : Name
  offset : Nat
  signals : List (Name × Nat)
  nonLinear : List C

/-- constraint_list/src/state_utils.rs:14-35 `build_encoding_iterator`. -/
def buildIter (enc : Encoding) (nodeId : Nat) (path : Name) (offset : Nat) : Res EncIter :=
  match enc.nodes[nodeId]? with
  | none => .error .panic
  | some n => .ok {
      nodeId := nodeId
      path := path
      offset := offset
      signals := n.signals.map fun s => (path ++ '.' :: s.1, s.2 + offset)
      nonLinear := n.nonLinear.map fun c => c.applyOffset offset }

/-- constraint_list/src/lib.rs:75-85 `EncodingIterator::new`. -/
def EncIter.new (enc : Encoding) : Res EncIter := buildIter enc enc.init ['m', 'a', 'i', 'n'] 0

/-- constraint_list/src/lib.rs:87-97 `EncodingIterator::next`. -/
def EncIter.next (enc : Encoding) (it : EncIter) (e : EncEdge) : Res EncIter :=
  buildIter enc e.goesTo (it.path ++ '.' :: e.path) (it.offset + e.offset)

/-- constraint_list/src/lib.rs:99-101 `EncodingIterator::edges`. -/
def EncIter.edges (enc : Encoding) (it : EncIter) : Res (List EncEdge) :=
  match enc.adjacency[it.nodeId]? with
  | none => .error .panic
  | some es => .ok es

/-- The recursion shared by `signal_iteration`, `build_relevant_set`, `obtain_and_simplify_non_linear` and `iterate`; `f` also says
whether to descend. -/
def iterate {σ : Type} (enc : Encoding) (f : σ → EncIter → Res (σ × Bool)) : Nat → EncIter → σ → Res σ
  | 0, _, _ => .error .outOfFuel
  | fuel + 1, it, s => do
    let (s, descend) ← f s it
    if descend then do
      let es ← it.edges enc
      es.foldlM (fun s e => do
        let next ← it.next enc e
        iterate enc f fuel next s) s
    else .ok s

/-- The non-linear constraints in the order in which constraint_simplification.rs:399-429 and non_linear_utils.rs
`obtain_and_simplify_non_linear` meet them. -/
def encodedNonLinear (enc : Encoding) : Res (List C) := do
  let it ← EncIter.new enc
  iterate enc (fun acc it => .ok (acc ++ it.nonLinear, true)) enc.nodes.length it []

/-- The flags of the simplifier (dag/src/lib.rs:546-554). -/
structure Flags where
  noRounds : Nat
  flagS : Bool
  oldHeuristics : Bool

/-- dag/src/map_to_constraint_list.rs:110-146 `map`: the simplifier's input. -/
def mapDag (d : Graph) (field : Int) (flags : Flags) : Res (Simplification.Input × Encoding) := do
  match d.nodes.getLast? with
  | none => .error .panic
  | some main =>
    let t ← Tree.new d
    let h ← walk d (mapTree d field) d.nodes.length t ⟨[0], main.forbiddenIfMain, [], [], [], 0⟩
    let enc ← encode d h.noConstraints
    let nonLinear ← encodedNonLinear enc
    .ok ({
      field := field
      nonLinear := nonLinear
      noPublicInputs := main.publicInputsLength
      noPublicOutputs := main.outputsLength
      noPrivateInputs := main.inputsLength - main.publicInputsLength
      forbidden := h.forbidden
      consEqualities := h.constantEqualities
      equalities := h.equalities
      linear := h.linear
      maxSignal := h.witness.length
      noRounds := flags.noRounds
      flagS := flags.flagS
      oldHeuristics := flags.oldHeuristics }, enc)

/-! ## Exporting the constraint list -/

/-- constraint_list/src/lib.rs:187-193 `get_witness_as_vec`; `order` is the iteration order of the map. -/
def witnessVec (order : List (Nat × Nat)) : Res (List Nat) :=
  order.foldlM (fun (w : List Nat) e => if e.2 < w.length then .ok (w.set e.2 e.1) else .error .panic) (List.replicate order.length 0)

/-- constraint_list/src/lib.rs:57-62 `IteratorSignal::new`: the witness position, or the number of wires. -/
def symWitness (map : BMap Nat) (original : Nat) : Nat := (BMap.get map original).getD map.length

/-- constraint_list/src/sym_porting.rs:14-30 `signal_iteration` at one component. -/
def symIter (map : BMap Nat) (acc : List SymElem) (it : EncIter) : List SymElem :=
  it.signals.foldl (fun acc s =>
    let w := symWitness map s.2
    acc ++ [⟨s.2, if w = map.length then -1 else w, it.nodeId, s.1⟩]) acc

/-- constraint_list/src/sym_porting.rs:5-37 `port_sym`. -/
def listSym (enc : Encoding) (map : BMap Nat) : Res (List SymElem) := do
  let it ← EncIter.new enc
  iterate enc (fun acc it => .ok (symIter map acc it, true)) enc.nodes.length it []

/-- constraint_list/src/r1cs_porting.rs:65 `while name.pop() != Some('(') {}`: the name before the last opening parenthesis; never ends
if there is none. -/
def popName (name : Name) : Res Name :=
  match name.reverse.dropWhile (· ≠ '(') with
  | [] => .error .outOfFuel
  | _ :: r => .ok r.reverse

/-- constraint_list/src/r1cs_porting.rs:58-70: used custom gates and their full names. -/
def customUsage (nodes : List (Name × List Int × Bool)) : Res (List (Name × List Int) × List Name) :=
  nodes.foldlM (fun acc n =>
    if n.2.2 then do
      let name ← popName n.1
      .ok (acc.1 ++ [(name, n.2.1)], acc.2 ++ [n.1])
    else .ok acc) ([], [])

/-- constraint_list/src/r1cs_porting.rs:76-89 `find_indexes`: position of the first equal name; past the end the index aborts. -/
def findIndexes (order : List Name) (data : List (Name × List Nat)) : Res (List (Nat × List Nat)) :=
  data.mapM fun e =>
    let i := order.findIdx (· = e.1)
    if i < order.length then .ok (i, e.2) else .error .panic

/-- constraint_list/src/r1cs_porting.rs:91-111 `iterate` at one component. -/
def customIter (enc : Encoding) (map : BMap Nat) (acc : List (Name × List Nat)) (it : EncIter) :
    Res (List (Name × List Nat) × Bool) :=
  match enc.nodes[it.nodeId]? with
  | none => .error .panic
  | some n =>
    if n.isCustomGate then do
      let signals ← n.ordered.mapM fun s => unwrap (BMap.get map (s + it.offset))
      .ok (acc ++ [(n.name, signals)], false)
    else .ok (acc, true)

/-- UTF-8 bytes of a name (external, `String::as_bytes`). -/
def utf8 (n : Name) : List Nat := n.flatMap fun c => (String.utf8EncodeChar c).map fun b => b.toNat

/-- constraint_list/src/r1cs_porting.rs:58-117: the data of the two custom gate sections. -/
def listCustom (enc : Encoding) (map : BMap Nat) : Res (List (List Nat × List Int) × List (Nat × List Nat)) := do
  let (usage, order) ← customUsage (enc.nodes.map fun n => (n.name, n.parameters, n.isCustomGate))
  let it ← EncIter.new enc
  let data ← iterate enc (customIter enc map) enc.nodes.length it []
  let applied ← findIndexes order data
  .ok (usage.map (fun u => (utf8 u.1, u.2)), applied)

/-- constraint_list/src/r1cs_porting.rs:4-124 `port_r1cs`: what is written for a simplified circuit.  `order` is the iteration order of
the map in `get_witness_as_vec`. -/
def listData (smp : Simplification.Input) (enc : Encoding) (out : Simplification.Output) (order : List (Nat × Nat))
    (customGates : Bool) : Res R1cs.Data := do
  let cs ← out.storage.mapM fun c => c.applyCorrespondence (fun s => BMap.get out.map s)
  let signals ← witnessVec order
  let custom ← (if customGates then do
      let c ← listCustom enc out.map
      .ok (some c)
    else .ok none)
  .ok {
    header := {
      field := smp.field
      totalWires := out.map.length
      publicOutputs := smp.noPublicOutputs
      publicInputs := smp.noPublicInputs
      privateInputs := smp.noPrivateInputs
      labels := smp.maxSignal
      constraints := cs.length }
    constraints := cs.map fun c => (c.a, c.b, c.c)
    signals := signals
    custom := custom }

/-- dag/src/r1cs_porting.rs:85-100 `traverse_tree` (does not descend into custom gates). -/
def traverse (d : Graph) : Nat → Tree → List (Name × List Nat) → Res (List (Name × List Nat))
  | 0, _, _ => .error .outOfFuel
  | fuel + 1, t, acc =>
    match d.nodes[t.nodeId]? with
    | none => .error .panic
    | some n =>
      if n.isCustomGate then do
        let signals ← n.ordered.mapM (fun s => do
          let id ← unwrap (NMap.get n.correspondence s)
          .ok (id + t.offset))
        .ok (acc ++ [(n.name, signals)])
      else do
        let es ← t.edges d
        es.foldlM (fun s e => do
          let sub ← t.goTo d e
          traverse d fuel sub s) acc

/-- dag/src/r1cs_porting.rs:5-113 `write`: what is written for an unsimplified circuit. -/
def dagData (d : Graph) (field : Int) (customGates : Bool) : Res R1cs.Data := do
  let (cs, n) ← constraintSection d
  match d.nodes.getLast? with
  | none => .error .panic
  | some main =>
    let wires := n + 1
    let custom ← (if customGates then do
        let (usage, order) ← customUsage (d.nodes.map fun n => (n.name, n.parameters, n.isCustomGate))
        let t ← Tree.new d
        let data ← traverse d d.nodes.length t []
        let applied ← findIndexes order data
        .ok (some (usage.map (fun u => (utf8 u.1, u.2)), applied))
      else .ok none)
    .ok {
      header := {
        field := field
        totalWires := wires
        publicOutputs := main.outputsLength
        publicInputs := main.publicInputsLength
        privateInputs := main.inputsLength - main.publicInputsLength
        labels := wires
        constraints := cs.length }
      constraints := cs.map fun c => (c.a, c.b, c.c)
      signals := List.range wires
      custom := custom }

/-! ## Sizes used by the witness code -/

/-- executed_program.rs:235-265 `produce_dags_stats` (signals, input/output signals and created components). -/
structure Stats where
  signals : List Nat
  io : List Nat
  components : List Nat
  deriving DecidableEq, Repr

/-- executed_program.rs:240-253: the loop over the nodes. -/
def statsStep (acc : Stats) (e : Node × List Edge) : Stats :=
  let n := e.1
  let total (l : List Nat) : Nat := (e.2.map fun ed => l.getD ed.goesTo 0).sum
  ⟨acc.signals ++ [n.inputsLength + n.outputsLength + n.intermediatesLength + total acc.signals],
    acc.io ++ [n.inputsLength + n.outputsLength + total acc.io],
    acc.components ++ [1 + total acc.components]⟩

/-- executed_program.rs:235-265 (the result takes the last entry of each list). -/
def dagStats (d : Graph) : Stats := (d.nodes.zip d.adjacency).foldl statsStep ⟨[], [], []⟩

end Verif.Dag
