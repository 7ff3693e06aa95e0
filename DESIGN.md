# Formal model of the circom compiler (iden3/circom 2.2.3) in Lean 4

Scope: the parts of circom whose correctness a circuit author or a verifier silently relies on:
field arithmetic, symbolic expressions, constraint normalisation, the R1CS optimiser, witness
renumbering, signal numbering, the R1CS file format, array memory, assignment/known-value analysis,
some front-end passes (comments, includes, return check, scopes), and the passes from the executed
program to the witness program (constant folding, desugaring, addresses, temporaries, copies, runs of
sub-components, layout tables, input names).  /repo is read as text, nothing is executed.

## Trusted base

* Lean 4.33.0 kernel.  Axioms allowed: `propext`, `Classical.choice`, `Quot.sound` (each property theorem is
  checked with `#print axioms`; no own axioms, no `native_decide`, no `bv_decide`).
* The definitions in `lean/Verif/**` as readings of the Rust text.  Each definition cites file and lines.
* External crates are modelled from their documented behaviour, not verified:
  * `num-bigint-dig`: `BigInt` is `Int`; `/` and `%` truncate toward zero (`Int.tdiv`, `Int.tmod`), `% 0` and `/ 0`
    abort; `mod_inverse` is `None` exactly when the gcd is not 1; `modpow`; `bits`; `&`,`|`,`^`;
    `to_usize` is `None` for negative values and values at least 2^64; `to_bytes_le` drops the sign and maps 0 to `[0]`;
    `to_signed_bytes_le`/`from_signed_bytes_le` are mutually inverse.
  * `HashMap`/`HashSet`: finite maps/sets with distinct keys; iteration order is arbitrary.  Modelled as association lists with
    distinct keys; where the code's result depends on iteration order the order is a parameter and theorems
    quantify over it.  `BTreeMap`/`BTreeSet`: iterated in ascending key order.
  * threads and channels: the multiset of messages received is the multiset sent, in arbitrary order.
  * files: `write_all`, `seek`, `read_exact` act on a byte array.
* Not modelled: memory exhaustion, `usize` overflow (unless a property is about it), I/O errors, report texts, progress output.

## Conventions

* `&mut x` becomes a returned new value; loops become folds / structural or well-founded recursion.
* A panic (`unwrap`, failed `assert!`, index out of bounds, division by zero in `BigInt`) is an explicit error value (`panic`),
  distinct from error values the code returns.
* Semantics of constraints (the specification side) is in separate definitions: an assignment gives each signal a
  value in `ZMod p`, the constant wire evaluates to 1, a constraint (A,B,C) holds iff A*B = C.
* Property theorems live in files `Verif/Props/*.lean`, one section per property with an `example` showing that the hypotheses are
  satisfiable by a non-trivial case.  Helper lemmas live with the model.
* A theorem that covers only part of the English claim has the suffix `_partial`.  A property the code violates has a theorem
  with suffix `_violated` (the negation with a concrete witness) next to the `_partial` one.

## Plan per property

| property | what is modelled and how it is proved |
|---|---|
| C01 Field addition, subtraction, multiplication and negation are exact | `Verif/ModArith.lean` models modular_arithmetic.rs over `Int`; spec: range and `Int.ModEq`. |
| C02 Field division | Same; spec: `IsUnit` in `ZMod p` / gcd; extended gcd modelled by its specification function computed with `Int.gcdA`. |
| C03 Integer quotient and remainder operators agree | Same; spec: Euclidean division on representatives. |
| C04 Remainder by zero is reported, not an abort | Same; the model has an explicit `panic` outcome; the negation is proved. |
| C05 Field exponentiation | `modpow` modelled by repeated squaring; spec: `a^e` in `ZMod p`. |
| C06 Comparison operators form one total order on signed representatives | Same file; spec: `signed p x` on representatives and the order on `Int`. |
| C07 Boolean operators follow truth tables | Same file; spec: truthiness `x mod p ≠ 0`. |
| C08 Shift operators: terminate, are dual, and reduce correctly | Same; mutual recursion modelled with a termination proof (measure: does the argument exceed p/2). |
| C09 Bitwise operators and complement | Bits through `Nat.testBit`; complement modelled on bit lists as in the code. |
| C10 Batch inversion | `multi_inv` modelled with its two passes; induction over the list. |
| C11 Symbolic arithmetic is sound for evaluation | `Verif/Algebra.lean`: expressions with association lists; `eval`; case analysis per operation. |
| C12 Exact boundary of the quadratic fragment | Case analysis, spec: syntactic degree classes. |
| C13 Generated constraint means equality | From C11 and the negation of C in the constraint form. |
| C14 Substituting a signal preserves meaning and removes the signal | `raw_substitution` semantics lemma. |
| C15 Constraint normalisation preserves solutions | `fix_raw_constraint`; canonical coefficients as hypothesis, shown to be preserved by all operations. |
| C16 Solving a linear constraint for a signal is equivalent to the constraint | `clear_signal*`; needs a field inverse. |
| C17 Renumbering signals preserves meaning | Maps on keys; injectivity. |
| C18 Constraint classification is correct | Direct from the classifier definitions. |
| C19 Linear elimination (default heuristic) is an equivalence | `Verif/Linear3.lean`: loop invariant = equivalence of (remaining constraints + pivots) with the input; induction. |
| C20 Linear elimination (occurrence-count heuristic) is an equivalence for every hash order | `Verif/Linear4.lean`: same invariant; the choice of the signal is an arbitrary function satisfying the code's selection rule. |
| C21 Elimination terminates and never aborts | Well-founded measures: heuristic 3: largest non-protected signal decreases; heuristic 4: multiset of elimination times. Lookups modelled with `panic`. |
| C22 Eliminated signals disappear; protected signals stay | Invariants on supports. |
| C23 Constraint clusters partition the system by shared signals | `Verif/Clusters.lean`: arena + forwarding array with path compression; invariant to an abstract partition. |
| C24 Merging equal signals is an equivalence | Connectivity from C23 and transitivity of equality. |
| C25 Eliminating constant signals is an equivalence | Model of `constant_eq_simplification` + map overwrite; negation by witness, `_partial` under distinct signals, one direction unconditional. |
| C26 Worker scheduling does not change the simplified system | Permutation invariance of the folding of results. |
| C27 Simplification is complete: every original solution is a solution of the output, C28 Simplification is sound: every output solution extends to an original solution | `Verif/Pipeline.lean`: composition of phases; refinement on solution sets. |
| C29 Witness renumbering is an order-preserving bijection fixing the public prefix | `rebuild_witness` modelled with its FIFO queue; invariant: queue = interval. |
| C30 Every signal in an emitted constraint has a witness position | Support invariant through the pipeline. |
| C31 Witness list and symbol file are consistent with the renumbering | Direct. |
| C32 Constraint storage is a faithful array | Histories as lists of operations; refinement to a list of constraints. |
| C33 Constant interning is injective and stable | Invariant over insertion histories. |
| C34 Signal numbering in the template graph | Construction histories of nodes and edges; tree flattening with offsets. |
| C35 Flattening keeps all constraints exactly once | Structural induction on trees. |
| C36 Unsimplified witness list is complete | Same induction. |
| C37 R1CS file round trip | Byte-list writer and reader; round trip by induction. |
| C38 R1CS sections have exact recorded sizes | Writer with back-patching on a byte buffer. |
| C39 Terms of a linear combination are written in ascending wire order | Sorting by little-endian bytes; witness 1 vs 256. |
| C40 Array cell addressing is a bijection, C41 Array writes and reads, C42 Out-of-range flat indices are reported | `Verif/MemorySlice.lean`. |
| C43 No execution path assigns a signal twice | Branch trees, paths as outcome functions; the checker as a fold over the assignment events. |
| C44 Branch bookkeeping is balanced | Small statement language with a condition stack; net effect computed. |
| C45 Compile-time known values are right | Small imperative language: abstract execution as in execute.rs versus big-step concrete semantics. |
| C46 Constant folding records are joins over all visits | Join semilattice over visit histories. |
| C47 Comment removal keeps byte positions and code | State machine over `List Char` with UTF-8 lengths; spec by an independent comment grammar. |
| C48 Functions accepted by the return check always return | Big-step semantics of statements with return outcome. |
| C49 Include processing visits each reachable file exactly once and terminates, C50 Custom-gate pragma check finds every offending include chain | Finite graphs; measures: unvisited files / untraversed edges. |
| C51 Input name table lookup | Open addressing over `List`; lookup spec. |
| C52 Variable scoping | Stack of association lists; refinement to shadowing semantics. |
| C53 Tag propagation only keeps shared tags | Fold over assignments; meet of tag maps. |
| C54 Temporaries of generated expressions never clash | Slot allocation over expression trees; liveness spec. |
| C55 Header of the constraint file agrees with its contents | `Verif/Dag.lean` + `Verif/R1cs.lean`: both writers (with and without simplification); counts of the header against sections; negation for simplified files. |
| C56 Constraint file does not depend on hash iteration order | Coefficient maps as permutations; the sort of the writer makes the bytes equal. |
| C57 Witness code and template graph agree on signal numbers, C58 Sizes of the witness program match the component tree | Export of executed templates and the graph built from the same history; structural induction. |
| C59 Custom gate tables describe the custom gates | Tables of both writers against the instances of the tree. |
| C60 End to end: written file means the same as the program | Composition of C19–C31, C34–C38: solutions of the bytes read back = solutions of the program's constraints. |
| C61 Assigning an array of another size touches only the common cells | `Verif/Memory.lean`: `insert_values` against cells. |
| C62 Generated constraints mean the program's equalities | `Verif/Exec*.lean`: simulation of abstract by concrete execution. |
| C63 Names and loading of main inputs | `Verif/Inputs*.lean`: generated names, hash table (C51), `setInputSignal`, `loadJson`. |
| C64 Run-time index is the value of the index expression, C65 Compile-time addresses are row-major | `Verif/Address*.lean`: index expressions over the field and over machine integers; constant reduction of addresses. |
| C66 Run-time position of signals in arrays of different components, C67 Layout tables reach the witness programs unchanged | `Verif/Mapped*.lean`: tables as bytes/words, emitted address code, loaders. |
| C68 Array assignments copy exactly the fitting elements | `Verif/Copy*.lean`: emitted copy loops of both targets. |
| C69 A sub-component runs exactly once, after its last input | `Verif/Runs*.lean`: static input analysis against all executions of the instruction list. |
| C70 A component counts as fed exactly when all its inputs are assigned | `Verif/Fill*.lean`: counters against the tree of input slots. |
| C71 Desugaring keeps the meaning | `Verif/Sugar*.lean`: source semantics with fuel, hoisting with temporaries, mutual recursion; simulation both ways. |
| C72 Constant folding and dead code removal keep the meaning | `Verif/Filters*.lean`: executor with records of visits; records are right for concrete runs; filtered runs equal. |
| C73 Templates accepted by the known/unknown analysis have no constraints under unknown conditions | `Verif/Known*.lean`: the analysis as written; cells of the block stack related to cells of the execution; fixed point of the last pass; bound on the passes. |
| C74 No anonymous component or tuple survives desugaring, C75 Desugaring anonymous components and tuples keeps the meaning | `Verif/Anon*.lean`: the pass as written; a semantics where anonymous components are expressions against one with a table of component instances; forward simulation with loop counters hidden in the outer block. |
| C76 Symbolic execution on arrays gives the right constraints | `Verif/ArrExec*.lean`: values are slices; the memory functions preserve any relation of cells (parametricity); simulation with a concrete run that decides all indices and branches; a flag marks where the code drops cells. |
| C77 Accepted programs meet no value of the wrong kind or dimension, C78 Accepted programs look up no missing name | `Verif/Types*.lean`: the checker as written (register of calls, guess of function types, ports from the text); an execution of shapes with an oracle for everything that depends on values; a typing relation between them: accepted bodies are derivable (`TypesCheck`), derivable bodies run safely (`TypesPure`); scopes of names against blocks and flat maps (`TypesNames`). |
| C79 The instructions do what the program text says | `Verif/Ir*.lean`: source semantics with scopes of named arrays (undefined when an element was never assigned), translation with symbol table and stack of addresses, passes, semantics of the instructions on a flat memory with undefined contents; simulation with a relation between scopes and ranges of memory (`Mt`, `Lay`), first expressions, then statements, then functions by depth of calls, then templates. |
| C80 With the prime goldilocks the C++ program computes what the compiler computes | `Verif/Gold*.lean`: each function of `goldilocks/fr.hpp` on natural numbers with explicit reduction modulo 2^64; compared with `ModArith` through `Props.Ir.prime`; the multiplication by its image in `ZMod p` (2^64 = 2^32 - 1). |
| C81 With `--no_asm` the C++ program computes what the compiler computes | `Verif/Frg*.lean`: each function of `generic/fr.cpp`, limb lists as natural numbers, GMP by its documentation; a relation `Is` between elements and integers that every function preserves; the Montgomery loop by the invariant `T · 2^64 ≡ …` with the dropped carry shown to be zero when `(2^64+1)q ≤ 2^64·R`. |
| C82 The witness file holds the witness; both programs write the same bytes | `Verif/Wtns*.lean`: the two writers as lists of bytes and of 32-bit words stored into a buffer; an independent parser of the layout in `Verif/Props/Wtns.lean`; the elements by C81. |
| C83 The JSON file of inputs | `Verif/Json*.lean`: JSON trees, the two readers as written; independent descriptions: the leaves of a tree by path, and `Arr`/`Elem`/`Fields`, files in the shape of the declarations. Both readers shown to list the leaves; the leaves shown to be the compiler's names (C63), then `C63_load`. |
| C84 The arithmetic of the WebAssembly program | `Verif/WFrInt.lean` (limbs of 32 bits: sums, column products, Montgomery reduction, trial division, inverse, power), `Verif/WFr.lean` (elements in memory, conversions in place); `Verif/WFr*Lemmas.lean`. Limbs are shown to be the numbers they should be; each function is shown to leave the result at its address and to keep the number of every other element (`Res`, `Conv`); then compared with the compiler's functions as for C81. |
| C85 The memory of the WebAssembly module | `Verif/WMem.lean` (layout, data segments, exported functions on bytes, `_doCalculateWitness`); `WMemLemmas` (bytes and elements), `WMemInit` (segments are read back), `WMemRun` (loop over names and values). The generated `create` and `run` of the main component are parameters, assumed to leave the tables alone. The arithmetic functions called are those of C84, applied to the elements decoded from the bytes. |
| C86 One syntax tree, the documented one | `Verif/Grammar.lean` (the rules of `lang.lalrpop` as an inductive relation between token sequences and trees; not assumed unambiguous). `GrammarParse` is a deterministic parser used only in proofs; `GrammarLemmas`, `GrammarStmts` show it finds every derivation, which gives uniqueness; `GrammarPrint` writes trees with a table of precedences given apart; `GrammarMore` dangling else, refusals, texts. |
| C87 Tokens | `Verif/Lexer.lean` (literals and regular expressions of `lang.lalrpop`, longest match, literals first: the default tokenizer of LALRPOP); `LexerLemmas` holds the reference (spellings, cuts), `LexerRun` the equivalence; with C47 for comments. |
| C88 Instances of functions | `Verif/Inst.lean` (`merger.rs`, `type_inference.rs` with `&mut State` returned and panics explicit); the reference is the relation `Linked` between code, instances and dimensions of variables (`InstLink`), not the functions that link; `InstLemmas` the state of instances, `InstRet` the returned values, `InstEnds` the end of the search, `InstMake` that no instance is missing. |
| C89 The `--inspect` warnings | `Verif/Inspect.lean` (`constraint_correctness_analysis.rs`) on the graph of C34; the reference is the list `exposed` of arrays made from the declarations of the template and of its components, and the constraints over names; `InspectLemmas` the counters, groups and splitting of names, `InspectNames` the numbers of reachable signals, `InspectNode` one template, `InspectAll` the program. |
| C90 Constants of functions and buses | `Verif/Expand.lean` (`constants_handler.rs`: inference, check of lengths, expansion, and the running of bodies over arbitrary values and operations); `ExpandSpec` the bodies that hide no name, `ExpandEnv` environments, `ExpandInfer` what the tags mean, `ExpandSim`/`ExpandRun` the simulation, `ExpandNamed` the names as `symbol_analysis.rs` wants them and the absence of panics. |
| C91 Structural checks | `Verif/Struct.lean`: the checks on custom templates, on declarations in loops and on buses, the collection of fields, beside the runs of the same statements (`Run`: branches and turns of loops are free; `BusRun`); `StructLemmas` the inductions. |
| C92 Log and error messages | `Verif/Log.lean`: cutting of texts, table of strings, `produce_c` and `produce_wasm` of `log`, the message buffer of the module (`getMessageChar`, `buildLogMessage`, `buildBufferMessage`), the JavaScript side; `LogLemmas` the loops on memory (of `WMem`) and the induction over runs. |
| C93 Inference of templates | `Verif/Infer.lean`: collection of assignments and marking of declarations on the programs of `Types`; `InferLemmas` what is collected, marked and typed; `InferSim` a simulation between the runs of the type checker with and without marks. |
| C94 Reduction of types | `Verif/Reduce.lean`: the marking of occurrences and assignments on the programs of `Types`, and the removal of component assignments before code generation; `ReduceLemmas` induction over the typing relation, with the tables of the pass compared to that of the checker. |
| C95 JSON files | `Verif/JsonOut.lean`: the writers character by character, on the constraint lists of `Dag`; a reader for a fragment of RFC 8259 is part of the statement. `JsonOutLemmas` reads the written text back by induction over the entries; `Props/JsonOut` compares with the R1CS file through C37 and C55. |
| C96 program archive | `Verif/Archive.lean`: the numbering of statements and expressions, the tables of wires, the merger and `ProgramArchive::new` as functions that return tree and counter. `ArchiveLemmas` states the nodes of a tree, the tree without numbers and the declarations independently of the numbering and proves them by mutual induction; `Props/Archive` has acceptance, reports, contents, kinds and numbers. The later removal of anonymous components and tuples copies nodes with their numbers (not in this property). |
| C97 files of a run | `Verif/Driver.lean`: the options, `Input::new` and `start` as a list of stages and file operations that stops at the first failure; the stages themselves are outcomes given from outside. `DriverLemmas` computes the operations of a complete run; `Props/Driver` has levels, prime, failure, effect, success, uniqueness and the fate of the program. |
| C98 size of the table of inputs | `Verif/TableSize.lean`: the size with `f32` conversion and any correctly rounded `f32` logarithm (a real function with the error bound and the grid of single precision); the reader of the converter. `TableSizeLemmas` bounds the binary logarithm near powers of two; `Props/TableSize` combines with C51. |
| C99 text of the symbol file | `Verif/SymText.lean`: the writer character by character on the lines of `Dag`; a reader is part of the statement. `SymTextLemmas` reads the text back and shows that qualified names have no separators; `Props/SymText` combines with C31 and C34. |
| C100 primes and constants of the field | `Verif/FieldData.lean`: the data of `fr.asm` and `fr-data.wat` for each prime, copied by a script. `PrimeCert` has Pratt certificates (checked in the kernel by `decide +kernel`, sound by Mathlib's `lucas_primality`). `Props/Primes` combines with C97 (accepted options) and C85 (memory of the module), and discharges what C85 asks of the field. |
| C101 pragmas and versions | `Verif/Pragma.lean`: grammar rules of pragmas, `AST::new`, the two checks of versions, the loop over files. The order of versions is stated separately and the code's comparisons are shown to decide it. |
| C102 public inputs of the main component | `Verif/Public.lean`: `analyze_main`, the inputs of a template as static analysis and as execution see them, the instance that takes the list, the split of `build_wires` (whose results are the wires of `Dag.Template`). |
| C103 stages of the type analysis | `Verif/Stages.lean`: `check_types` with the single analyses as parameters; the archive as its tables and sets of names. The statement says for each definition what has been passed, and for each entry of the archive that goes on where it comes from. |
| C104 tags of the main component | `Verif/MainTags.lean`: the search for tags in inputs and in buses, with a bound on its depth. The statement has an inductive definition of a tagged wire. |
| C105 choice of the main component | `Verif/RunParser.lean`: the end of `run_parser` with the chains of includes, the archive and the rewriting as parameters. The statement speaks of the list of files. |

## Which code is modelled

Function by function; the comment of each definition gives file and lines and what is left out.

| code in /repo | model | left out |
|---|---|---|
| `circom_algebra/src/modular_arithmetic.rs` | `ModArith` | – |
| `circom_algebra/src/algebra.rs` | `Algebra`, `CMap`, `BMap` | printing, JSON |
| `circom_algebra/src/simplification_utils.rs` | `Linear` | progress output; threads as arbitrary order of results |
| `circom_algebra/src/constraint_storage`, `constant_tracking` | `Storage`, `Bytes` | – |
| `constraint_list/src/*` (simplification, clusters, porting) | `Simplification`, `Clusters`, `Dag` | – (JSON and `sym` texts: see below) |
| `dag/src/*` | `Dag` | tag and parallel flags that only reach reports |
| `constraint_writers/src/r1cs_writer.rs`, `r1cs_reader.rs` | `R1cs` | log writer |
| `program_structure/src/utils/memory_slice.rs`, `environment.rs` | `Memory`, `Exec` (scopes) | – |
| `constraint_generation/src/execute.rs` | `Exec`: variables, signals, assignments, branches, loops, returns, equalities for scalars; `ArrExec`: the same for arrays | calls (C48 gives the facts used), components, buses, logs, asserts; in `ArrExec` also returns, loops with unknown condition, assignment states of signals |
| `constraint_generation/src/assignment_utils.rs` | `Exec`, `Tags` | bus assignment by fields: only through `Fill` |
| `constraint_generation/src/environment_utils/component_representation.rs`, `bus_representation.rs` | `Fill` | tags of inputs, values |
| `constraint_generation/src/execution_data/{analysis,filters}.rs` | `Analysis`, `Filters` | constructs outside the scalar fragment |
| `constraint_generation/src/execution_data/executed_{template,bus,program}.rs` | `Dag`, `Inputs` | clustering of component triggers |
| `type_analysis/src/decorators`, `analyzers/functions_all_paths_with_return_statement.rs`, `unknown_known_analysis.rs` | `Returns`, `Known` | array sizes, signal declarations and tags in the last one; tag analysis, custom gates, signal declarations |
| `type_analysis/src/analyzers/type_check.rs`, `type_register.rs`, `type_given_function.rs`, `symbol_analysis.rs`, `functions_free_of_template_elements.rs`, `no_returns_in_template.rs` | `Types` | buses, tags, wording and places of reports |
| `parser/src/parser_logic.rs` (comments), `include_logic.rs`, `lib.rs` main loop | `Preprocess`, `Include` | |
| `parser/src/lang.lalrpop`, `ast_shortcuts.rs`, `statement_builders.rs`, `expression_builders.rs` | `Grammar`, `Lexer` | positions; the alternatives that report an error and go on; that the tokenizer and the parser LALRPOP generates follow the rules |
| `parser/src/syntax_sugar_remover.rs` | `Anon` | accesses of left sides; logs with tuples; functions (checked, not rewritten). The table of instances keeps all instances, while `execute.rs` sees the components of a loop through the declared array |
| `compiler/src/hir/sugar_cleaner.rs` | `Sugar` | component creation, meta data other than what the passes read |
| `compiler/src/hir/merger.rs`, `type_inference.rs`, `analysis_utilities.rs` | `Inst` | buses; tuples and anonymous components (gone by then); meta data other than dimensions; the names of templates called |
| `dag/src/constraint_correctness_analysis.rs` | `Inspect` (`clean_constraints` in `Dag`) | wording of the reports; how `_ <== e` collects signals in `execute.rs` (given) |
| `type_analysis/src/decorators/constants_handler.rs` | `Expand` | positions, tags, wording of the reports; values and operations are a parameter |
| `type_analysis/src/analyzers/{custom_gate_analysis,signal_declaration_analysis,buses_free_of_invalid_statements}.rs`, `bus_data.rs` (`fill_fields`) | `Struct` | positions, tags, wording of the reports; reports of buses are counted |
| `statement_builders.rs` (`build_log_call`, `split_string`), `translate.rs` (`translate_log`), `log_bucket.rs`, `wasm_code_generator.rs` (message functions), `witness_calculator.js` (`getMessage`, `writeBufferMessage`, `showSharedRWMemory`) | `Log` | values are given by the run, their passage through shared memory is C85; only simple escapes |
| `type_analysis/src/decorators/component_type_inference.rs` | `Infer` | programs of `Types`: no buses, no anonymous components |
| `type_analysis/src/decorators/type_reduction.rs`, `compiler/src/hir/component_preprocess.rs` | `Reduce` | programs of `Types`: no buses; the readers of the marks in `unknown_known_analysis.rs`, `execute.rs` and `translate.rs` |
| `constraint_writers/src/json_writer.rs`, `constraint_list/src/json_porting.rs`, `dag/src/json_porting.rs` | `JsonOut` | failures of the file system; `SignalsJSON` (unused); the crate `json` is external: its compact output and the order of entries of its objects are assumed |
| `program_structure/src/program_library/program_archive.rs` (`new`), `program_merger.rs`, `template_data.rs` and `bus_data.rs` (`new`, tables of wires), `function_data.rs` (`new`), `FillMeta` of statements and expressions | `Archive` | operators, texts of `log`; of `Meta` only number, file and one position; the getters and setters of the tables |
| `circom/src/main.rs`, `input_user.rs`, `execution_user.rs`, `compilation_user.rs`, `compiler/src/compiler_interface.rs`: options and files of a run | `Driver` | the parsing of arguments by `clap`; messages; `wat_to_wasm` and the stages are outcomes; paths are compared as lists of names (no links, no `..`) |
| `c_elements/mod.rs` and `wasm_elements/mod.rs` (`get_input_hash_map_entry_size`), `common64/json2bin64.cpp` (table) | `TableSize` | `f32::log2` is taken to round correctly; the rest of the converter |
| `constraint_writers/src/sym_writer.rs` | `SymText` | failures of the file system |
| `c_elements/*/fr.asm` (section `.data`), `wasm_elements/*/fr-data.wat`, `utils/constants.rs` | `FieldData`, `Driver.constant` | the code of `fr.asm`; data for square roots are copied but nothing is claimed of them |
| `parser/src/lib.rs` (versions), `ast.rs` (`AST::new`), pragmas of `lang.lalrpop` | `Pragma` | texts and positions of reports |
| `symbol_analysis.rs` (`analyze_main`), `template_data.rs` (`fill_inputs_and_outputs`), `execute.rs` (list of public inputs) | `Public` | positions of reports, arguments of the main component |
| `type_analysis/src/check_types.rs`, `program_archive.rs` (removal, `get_template_data`) | `Stages` | the single analyses are parameters here; `tag_analysis.rs` is commented out as a whole and is no code |
| `type_check.rs` (`check_main_has_tags`, `check_bus_contains_tag_recursive`) | `MainTags` | names and dimensions of wires, the report |
| `parser/src/lib.rs` (end of `run_parser`, `produce_report_with_main_components`) | `RunParser` | texts of reports; reading of files (`Include`, `Pragma`) |
| `compiler/src/intermediate_representation/*` | `Address`, `Mapped`, `Copy`, `Runs`, `Slots`, `Ir` | text of the instructions (`Ir` has their meaning), component creation in `Ir` |
| `compiler/src/ir_processing/*` | `Slots`, `Address`, `Runs`, `Ir` | – |
| `compiler/src/circuit_design/build.rs` | `Inputs`, `Mapped`, `Ir` | – |
| `code_producers/src/c_elements/goldilocks/fr.hpp` | `Gold` | `Fr_copy`, `Fr_copyn`, conversion from and to text |
| `code_producers/src/c_elements/generic/fr.cpp` and its constants (`c_code_generator.rs`) | `Frg` | `Fr_toInt` (C64), `Fr_longNeg`, allocation, destination equal to an operand; `mpn_*` and `mpz_*` are by their documentation |
| `code_producers/src/c_elements`, `wasm_elements` | `HashMap`, `Inputs`, `Mapped`, `Copy`, `Address` (`Fr_toInt`), `Wtns` (witness file), `JsonIn` (file of inputs, after parsing), `WFrInt`, `WFr` (`fr-code.wat`), `WMem` (memory and exported functions of the module, `witness_calculator.js`) | x86-64 assembly, `calcwit` threads, the functions of the WebAssembly module for messages |

## Faults found in the code

Each is a proved theorem with a concrete witness unless marked "(text)"; those are observations made while
reading that lie outside the model.

Arithmetic and constraints
* C04_mod_zero_violated: `x % 0` aborts the compiler instead of being reported.
* C25_violated, C28_violated, C60_violated: two contradictory constants for one signal: one is dropped, an unsatisfiable program gets a satisfiable constraint file.
* C39_violated: wires of a linear combination are sorted by little-endian bytes (256 before 1).
* C55_violated: after simplification the header announces more inputs than there are wires.
* C34_violated: two signals of the same name in different blocks of a template share their numbers.

Symbolic execution
* C42_violated, C42_index_violated: off-by-one guard, index = number of cells aborts; C41_fewer_dimensions_accepted.
* C43_violated, C44_false_error, C44_abort: a `while` leaks entries of the stack of conditions: double assignments are accepted, correct programs are rejected, some abort.
* C45_violated, C62_violated, C72_loop_violated: loops with unknown condition are executed twice only; wrong constants, wrong constraints, wrong witness code.
* C72_ternary_violated: branches of an inline conditional with unknown condition are not visited; a stale constant is folded.
* C72_endless_violated: loops with empty body are removed although they may not end. (text) Calls in such conditions, and logs in functions whose call is part of a folded expression, disappear too.
* C73_nested_violated, C73_hidden_violated: the variables modified in a `while` are not handed on (unknown_known_analysis.rs:314-374), so an enclosing loop or conditional takes them for known; the template is accepted and fails during constraint generation.
* C73_param_violated: parameters are entered as arrays (unknown_known_analysis.rs:41-76) and stay known after an assignment.
* C73_self_violated: `var x = x;` counts as known, but the variable has no value.
* C74_violated, C74_violated_parameter: `parallel A()(1 + B()(x))`: the checks (syntax_sugar_remover.rs:264-275) do not look inside an anonymous component under `parallel`; the inner one stays and a later phase aborts.
* C75_violated: `(a, b) = (1, A()(a))`: the component is fed before `a` is assigned, against the order the manual gives. C75_violated_name: names of generated counters are not reserved.
* C76_violated, C76_switch_violated, C76_abort_violated: an array read at an unknown position or chosen by an unknown condition becomes one unknown cell (execute.rs:1227-1242, 2837-2850); assigning it to an array leaves the other cells at their old values (`out = 0` emitted for `r = m[in]; out <== r[1]`), inside an inline array it aborts. (text) Signals and components are read the same way (execute.rs:2882-2886, 3208-3211). (text) `y[in] <-- ..` marks all cells of `y` as assigned. (text) `a === b` with fewer dimensions on the right passes the check of dimensions.
* C77_violated: a value of an unknown condition or position has no dimensions in the execution although the checker gave it some; an inline array of such values aborts. C77_shadow_violated: `component x = A(); { var x; x = 5; }` is accepted and aborts (execute.rs:380-386, 1571); C77_shadow_reject: the dimensions of a variable are taken from the signal of the same name. C77_ports_violated: the last declaration of a port counts, whatever branch is taken.
* C77_endless_violated: typing `f(x, n)` with a call `f([x], n - 1)` never ends. C77_unable_violated: `return h(g(x), g(y));` is rejected, as the guess explores no function twice. (text) The guess aborts on an empty inline array and treats ports as indices. (text) Comparing buses, `same_type` ignores the names once the dimensions agree (type_check.rs:64-77). (text) `check_if_it_is_a_tag` subtracts dimensions without test.
* C53_bus_total_violated (underflow of `remaining_inserts`), C53_read_violated.
* C70_*_violated: inputs assigned in both branches are counted twice, counter underflow, empty arrays in buses, postponed conditional assignments.
* (text) Reading a signal assigned in one branch only is accepted; calls replace the stack of conditions (execute.rs:3365-3371).

Front end
* C47_location_violated (position of an unclosed comment counts characters), C47_strings_violated (`//` in strings).
* C49_each_file_once_violated: the main path is not canonicalised.
* (text) the literal `0x` panics (lang.lalrpop:842-844).

Witness programs
* C51_found_wasm_violated, C51_absent_violated: names with hash zero.
* C54_notify_violated, C54_source_size_violated: temporaries not numbered or read again after being overwritten.
* C63_empty_field_violated, C63_empty_input_violated (division by zero in the compiler), C63_no_run_violated (only empty inputs: nothing is computed).
* C83_double_violated (a number beyond 2^53 in the file is read as another number, without a message, by both programs), C83_accepted_violated (files only one of the programs accepts; the C++ program rounds fractions), C83_keys_violated (a key with a dot beside the object it names: the programs read different values), C83_proto_violated (a signal named `__proto__` cannot be given to the JavaScript program).
* C84_pow_violated (`Fr_pow` of the WebAssembly program with both operands in one element, as in `x ** x`: the conversion of the exponent undoes that of the base, and the result is wrong; the C++ program and the compiler have the right one).
* C85_twice_violated (`setInputSignal` never writes the words for inputs set: `{"r": [1, 2], "r.y": 7}` starts the computation of a circuit with a third input, which has no value; the C++ program refuses), C85_unknown_violated (`getInputSignalSize` of a name that is no input reads the word at address 12, which is 0 at first: the name is accepted with an empty array).
* C86_text_violated (`split_string` cuts a `log` text at byte 230 with `split_at`, which panics inside a character of more than one byte: a text of 229 letters and an `é` aborts the compiler).
* C87_hex_violated (`0x` without digits is a token of the regular expression `0x[0-9A-Fa-f]*`, and `BigInt::parse_bytes(..).expect(..)` panics on it instead of reporting an error).
* C88_switch_violated (`produce_vcf_switch` and `link_switch` leave out the condition: in `f(1) ? 2 : 3` the call keeps the name `f`, which no instance has), C88_nested_violated (`infer_type_call` marks `f` as entered before it looks at the arguments, so the result of `function g(x) { return f(f(x)); }` is not found and `unwrap` panics), C88_larger_violated (`std::cmp::max` on vectors of dimensions is the order of words: of `[2, 10]` and `[3, 1]` it takes `[3, 1]`), C88_recursive_violated (a call of a function inside itself is left out of the maximum even where its arguments have other dimensions), C88_clash_violated (a function named `f_0` beside a function `f`: `quick_knowledge` is asked before the functions).
* C89_visited_violated (`analyse` keeps the names of the instances it has seen; `execute_template_call` leaves the tags of fields of buses out of the name, so of two instances that differ only there the second is never analysed).
* C90_shadow_violated (a variable that hides a constant of an outer block is replaced by the constant: `var i = 5; for (var i = 0; i < 3; i++) s++;` runs no turn).
* C90_capture_violated (whether an initial value is constant is decided after all declarations of the block, so `{ var a = b; var b = 3; return a; }` with a parameter `b` returns 3).
* C90_length_violated (the tags of an inner block are settled before those of the outer block: a length that depends on the arguments is not reported there).
* C90_total_violated (`var n = 2, w[n];` is accepted by the symbol analysis and makes `initialization_invariant_check` panic).
* C90_log_violated (a constant initialised by a call is replaced by the call: what the called function logs is repeated for each use).
* C91_underscore_violated (`_ <== e` in a custom template is rejected with "Added constraint"; executing it adds none).
* C91_total_violated (tuples are not removed from the bodies of buses: `(a, b) = (c, d);` in a bus, or a tuple as a dimension, panics).
* C91_fields_violated (`bus B() { {signal a;} {signal a;} }` is accepted and declares the field `a` twice).
* C92_newline_violated (`log("a", "\n")`: the JavaScript program prints `a` and two newlines, the C++ program has a blank after the `a`; a text that is only a newline is taken for the end of the line).
* C92_percent_violated (`log("100%")`: the text is the format of `printf`, undefined in C).
* C92_utf8_violated (`log("é")`: the JavaScript program prints each byte of UTF-8 as a character, `Ã©`).
* C92_split_violated (a text of more than 230 bytes is printed with a blank after the 230th byte).
* C92_boundary_violated (a character of several bytes across position 230 of a text: the parser panics in `split_at`).
* C93_branches_violated (`if (n) { component c; c = A(1); } else { component c; c = B(1); }`: the first `c` is marked with `B`, the program is rejected; without the inference, or with another name for the second component, it is accepted).
* C94_switch_violated (`component c = n ? A(1) : A(2); c.in[0] <== 5;`: nothing is written on `?:`, so `c` has no template for the pass, `c.in` is marked as a component and the assignment is removed from the witness program; the constraint stays. With a signal on the right the analysis of unknowns rejects the program instead, unknown_known_analysis.rs:178-186).
* C94_order_violated (the same if `c = A(1)` stands later in the text than `c.in[0] <== 5`, though it is executed before; exchanging the branches of the conditional repairs it).
* C94_parallel_violated (`c = parallel n ? A(1) : A(2);`: panic, "reduces_to knowledge is been look at without being initialized").
* C94_wrong_violated (`c = f(1); c.in[0] <== 5;` with a function `f`: the assertion of `get_template_data` fails; `c = parallel 1;`: panic; both would be reported by the type checker, which runs later).
* C94_shadow_violated (`signal x; { var x; x = 3; }`: the variable is marked as a signal, the tables of the pass do not know blocks).
* C97_once_violated (`json2bin64.circom` with `--c --prime goldilocks`: the C++ code of the circuit and the converter of inputs have the same file name; only `main`, `fr` and `calcwit` are reserved, input_user.rs:63).
* C97_source_violated (`circom x_js/x.circom --wasm`: `write_wasm` removes the folder `x_js` with the program in it, compiler_interface.rs:28-33; likewise `x_cpp` with `--c`).
* C98_room_violated (2^21 + 1 inputs: the `f32` logarithm is rounded to 21, the table has 2^21 places and `generate_hash_map` stops at its assertion; likewise 2^k + 1 up to k = 31).
* C98_converter_violated (257 inputs with goldilocks: the table has 512 places, `json2bin64.cpp` reads 256 of them and reports `Signal not found` for inputs that are there).
* C101_panic_violated (`pragma circom 2.0.18446744073709551616;`: a number of a version that is no machine word is not reported, the compiler panics, lang.lalrpop:855).
* C102_listed_violated (`template T(n) { if (n == 1) { signal input a; } else { signal a; } … } component main {public [a]} = T(2);` is accepted although `a` is no input of the circuit: the check looks at both branches). (text) An error in an argument of the main component is a panic and not a report (execute.rs:180-181, `f_arg.unwrap()`).
* (text, seen with C103) The report for `extern_c` without `custom` has the code of a wrong number of bus arguments (check_types.rs:101-104).
* C104_recursive_violated (`bus A() { A() x; } template T() { input A() a; } component main = T();`: no analysis refuses a bus that is a part of itself, since `type_bus` registers it before it looks at its fields; the search for tags then calls itself without end).
* C64_*_violated: index conversion part by part; `Fr_toInt` accepts elements that are not 32-bit (4891460686036598780 gives -5 on bn128). (text) `i32.const` with literals ≥ 2^32 is invalid.
* C66_cpp_*_violated (operator precedence), C66_wasm_nested_violated (`io_info` clobbered), C67_cpp_violated (buses with more than ten fields overflow `calloc(10)`), C67_codes_violated (instances declaring different signals).
* C68_*_violated: copies for empty arrays, copies past the variable in wasm, differently shaped arrays; C69_*_violated: components never run or run again.
* C71_*_violated: calls in loop conditions or unbraced bodies are evaluated once, `x = [x[1], x[0]]`, recursions that never return, left-over sugar that panics, dropped equalities. (text) `lhe_array_ce` keeps the dimensions of the whole variable.
* C79_log_violated: the arena sizes of calls in `log` are set on a copy (set_arena_size.rs:79-86) and stay 200; C79_equality_violated, C79_equality_left_violated: array-valued calls in `===`; C79_tag_violated: a tag right of `===` aborts. (text) The wasm `return` copies as many elements as the caller asks for, whatever the size returned. (text) `_ <== e` with a non-quadratic `e` unwraps `None` (execute.rs, `transform_expression_to_constraint_form`).
* (text) log strings are used as `printf` formats, are cut at byte 255 (may split a character and panic) and not escaped in wat.

## Axioms each theorem depends on

<!-- axioms: begin -->
(generated by `tools/axioms.py`)

* **no axioms**
  * Algebra: C12_numbers_fold
  * Mapped: C67_codes_panic
* **`propext`**
  * Address: C64_cpp_violated, C64_toInt_violated, C64_wasm_violated, C65_value
  * Algebra: C18_exclusive
  * Copy: C68_cpp_violated
  * Frg: C81_primes
  * Gold: C80_toInt_edge
  * HashMap: C51_absent_violated, C51_found_wasm_violated
  * Inputs: C63_empty_field_violated, C63_empty_input_violated, C63_no_run_violated
  * Inst: C88_clash_violated, C88_larger_violated, C88_nested_violated, C88_recursive_violated
  * MainTags: C104_recursive_violated
  * Mapped: C66_cpp_load_violated, C66_cpp_store_violated, C66_wasm_nested_violated, C67_codes_violated, C67_cpp_partial, C67_cpp_violated
  * Memory: C41_fewer_dimensions_accepted, C42_violated
  * ModArith: C05_pow_abort
  * Public: C102_listed_violated
  * Returns: C48_exact
  * Slots: C54_notify_violated, C54_source_size_violated
  * Struct: C91_total_violated
  * Sugar: C71_body_violated, C71_condition_violated, C71_leftover_violated, C71_recursion_violated, C71_swap_violated
  * WFr: C84_constants, C84_primes
  * Wtns: C82_primes
* **`Quot.sound`, `propext`**
  * Address: C64_total, C65_reduce, C65_wasm
  * Algebra: C12_mul_boundary, C14_new, C17_offset, C17_unknown_signal
  * Analysis: C46_folded_iff, C46_never_again, C46_order_irrelevant, C46_reached_iff, C46_total
  * Anon: C74_partial, C74_total, C74_violated, C74_violated_parameter, C75_violated, C75_violated_name
  * Archive: C96_accept, C96_contents, C96_ids, C96_order, C96_reports
  * Expand: C90_log_violated
  * Export: C31_symbols
  * Fill: C70_branches_violated, C70_delayed_violated, C70_empty_violated, C70_underflow_violated
  * Filters: C72_records
  * Gold: C80_eqN
  * Include: C49_each_file_once_partial, C49_each_file_once_violated, C49_each_once, C49_stops, C49_succeeds_iff
  * Infer: C93_agree_partial, C93_branches_violated, C93_last_partial, C93_more_partial, C93_needed, C93_text
  * Ir: C79_reduce
  * Log: C92_boundary_violated
  * MainTags: C104_ends_partial, C104_order, C104_tags_partial
  * Memory: C40_injective, C40_position, C40_refused
  * Preprocess: C47_every_text, C47_location_partial, C47_result, C47_same_length, C47_same_position, C47_unique
  * Public: C102_signals
  * Reduce: C94_order_violated, C94_parallel_violated, C94_shadow_violated, C94_switch_violated, C94_wrong_violated
  * RunParser: C105_accept, C105_none, C105_several
  * Runs: C69_anonymous_violated, C69_empty_violated, C69_unassigned_violated
  * Scope: C52_block, C52_goes_through, C52_visible
  * Slots: C54_addresses, C54_program_partial, C54_value
  * Stages: C103_decorated, C103_kept, C103_passed, C103_semantic, C103_total, C103_unreached
  * Struct: C91_custom, C91_total_partial, C91_underscore_violated
  * Sugar: C71_equality_violated
  * Tags: C53_bus_total_violated, C53_read_violated
  * Types: C77_ports_violated, C77_shadow_reject, C77_shadow_violated, C77_unable_violated, C77_violated
* **`Classical.choice`, `Quot.sound`, `propext`**
  * Address: C64_cpp_partial, C64_toInt_exact, C64_wasm_partial, C65_component, C65_order, C65_range, C65_total
  * Algebra: C11_add, C11_div, C11_eq, C11_mul, C11_neg, C11_pow, C11_sub, C11_tree, C12_add_boundary, C12_sub_boundary, C13_equality_constraint, C14_constraint, C14_expression, C14_into_constraint, C14_removed, C14_substitution, C14_value, C15_empty, C15_fix, C16_clear_signal, C16_clear_signal_nn, C17_correspondence, C17_witness, C18_constant_equality, C18_equality, C18_equality_order
  * Anon: C75_partial, C75_sizes
  * Archive: C96_index, C96_kinds
  * ArrExec: C76_abort_violated, C76_bounds, C76_cells_partial, C76_cellwise, C76_constraints_partial, C76_inline, C76_switch_violated, C76_uniform, C76_violated
  * Clusters: C23_partition, C23_same_cluster
  * Copy: C68_cpp_partial, C68_rerun_violated, C68_shape_violated, C68_wasm_partial, C68_wasm_violated
  * Dag: C34_contiguous_partial, C34_numbering_partial, C34_violated, C35_flatten_partial, C35_meaning_partial, C35_section_partial, C36_witness_partial, C57_address_partial, C57_jumps_partial, C57_subcomponent_partial, C58_stats_partial
  * Driver: C97_accept, C97_effect, C97_failure, C97_level, C97_once_partial, C97_once_violated, C97_prime, C97_sanity, C97_source_partial, C97_source_violated, C97_success
  * Exec: C43_assigned_once_loop_free, C43_assigned_once_partial, C43_violated, C44_abort, C44_balanced_partial, C44_false_error, C44_loop_effect, C44_violated, C45_known_values_flat_loops, C45_known_values_partial, C45_return_partial, C45_violated, C62_constraints_flat_loops, C62_constraints_partial, C62_violated
  * Expand: C90_bus_partial, C90_capture_violated, C90_length_violated, C90_shadow_violated, C90_total_partial, C90_total_violated, C90_trace_partial, C90_value_partial
  * Export: C31_symbols_program_partial, C31_witness, C55_plain_partial, C55_simplified_partial, C55_violated, C59_plain_partial, C59_simplified_partial, C60_plain_partial, C60_simplified_partial, C60_violated
  * Fill: C70_accepted, C70_conditional_partial, C70_delayed_partial, C70_fed_partial, C70_single_partial
  * Filters: C72_endless_violated, C72_flat_loops, C72_known, C72_loop_violated, C72_partial, C72_ternary_violated, C72_total
  * Frg: C81_infix, C81_prefix, C81_print, C81_read, C81_truthy, C81_undefined, C81_unique
  * Gold: C80_infix, C80_prefix, C80_toInt, C80_truthy, C80_undefined
  * Grammar: C86_declared, C86_defined, C86_else, C86_refused, C86_short, C86_text_partial, C86_text_violated, C86_tuple, C86_two, C86_unique, C86_written
  * HashMap: C51_absent_partial, C51_builds, C51_found, C51_found_wasm_partial
  * Include: C50_exact
  * Inputs: C63_load, C63_load_sound, C63_names
  * Inspect: C89_arrays, C89_exact_partial, C89_silent_partial, C89_total, C89_visited_violated
  * Inst: C88_distinct, C88_ends, C88_found, C88_linked, C88_returns_partial, C88_same_partial, C88_switch_violated
  * Ir: C79_equality_left_violated, C79_equality_violated, C79_function_partial, C79_log_violated, C79_prime, C79_tag_violated, C79_template_partial
  * JsonIn: C83_accepted_violated, C83_cpp, C83_double_violated, C83_js, C83_keys_violated, C83_load, C83_numbers, C83_proto_violated, C83_same, C83_strings
  * JsonOut: C95_order, C95_plain_partial, C95_read, C95_simplified_partial, C95_substitutions
  * Known: C73_hidden_violated, C73_nested_violated, C73_param_violated, C73_partial, C73_self_violated, C73_terminates, C73_values
  * Lexer: C87_comments, C87_hex_violated, C87_join, C87_longest, C87_signs, C87_words, C87_written
  * Linear: C19_equivalence, C20_entry_point, C20_equivalence, C21_no_abort, C21_terminates, C22_eliminated
  * Log: C92_error, C92_log_partial, C92_newline_violated, C92_percent_violated, C92_split_violated, C92_utf8_violated
  * Mapped: C66_cpp_partial, C66_wasm_partial, C67_codes_partial, C67_wasm
  * Memory: C40_inverse, C40_mutable, C41_frame, C41_read_back, C41_strict_refused, C42_flat_partial, C42_index_violated, C61_lenient
  * ModArith: C01_add, C01_mul, C01_neg, C01_sub, C02_div, C02_div_prime, C03_idiv_mod, C03_idiv_zero, C04_mod_nonzero_partial, C04_mod_zero_violated, C05_pow, C06_comparisons, C06_periodic, C06_signed_exists_unique, C07_asBool, C07_boolean_tables, C08_dual, C08_error_iff, C08_numBits_exists, C08_shiftL_small, C08_shiftR_small, C09_bitwise, C09_complement, C09_complement_involutive, C09_complement_noncanonical, C10_multi_inv, C10_multi_inv_abort
  * Pragma: C101_file_partial, C101_later, C101_panic_violated, C101_program_partial
  * Preprocess: C47_location_violated, C47_strings_violated
  * Primes: C100_asm, C100_names, C100_prime, C100_setup, C100_wasm
  * Public: C102_check, C102_list, C102_listed_partial
  * R1cs: C37_round_trip, C38_format, C38_sections, C39_ascending_partial, C39_violated, C56_deterministic
  * Reduce: C94_exact_partial, C94_marks_partial
  * Returns: C48_returns, C48_symbolic
  * Runs: C69_assert, C69_partial
  * Simplification: C24_deterministic, C24_merge, C25_constants_partial, C25_violated, C26_equalities, C26_linear, C27_complete, C28_satisfiable_partial, C28_sound_partial, C28_violated, C29_pipeline, C29_renumbering, C30_mapped
  * Storage: C32_storage, C33_encoding, C33_interning
  * Struct: C91_bus_partial, C91_custom_needed_partial, C91_fields_violated, C91_loop
  * Sugar: C71_complete_partial, C71_equality_partial, C71_functions_partial, C71_sound_partial, C71_translatable_partial
  * SymText: C99_plain_partial, C99_read, C99_simplified_partial
  * TableSize: C98_converter_partial, C98_converter_violated, C98_found_partial, C98_room_partial, C98_room_violated
  * Tags: C53_bus_kept, C53_bus_total_partial, C53_inline, C53_kept, C53_order, C53_read_partial
  * Types: C77_endless_violated, C77_main_partial, C77_partial, C78, C78_types_partial
  * WFr: C84_index, C84_infix_partial, C84_limbs, C84_pow_violated, C84_prefix, C84_truthy, C84_undefined
  * WMem: C85_file, C85_hash, C85_layout, C85_load, C85_messages, C85_names, C85_numbers, C85_prime, C85_refused, C85_tables, C85_twice_violated, C85_unknown_violated, C85_witness
  * Wtns: C82_cpp, C82_cpp64, C82_js, C82_length_violated, C82_read, C82_same, C82_same64, C82_words
<!-- axioms: end -->
