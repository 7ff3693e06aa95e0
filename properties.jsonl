{"id": "C01", "title": "Field addition, subtraction, multiplication and negation are exact", "statement": "For any two integers, the compiler's field add/sub/mul/negate return a value in [0,p) that is congruent modulo p to the integer sum/difference/product/opposite.", "quantifier": "all integers left,right (canonical or not, negative or not) and every modulus p>0", "why_tests_cant": "The operands range over all big integers and eight 64-256 bit primes; sampling cannot cover the reduction boundary for each.", "anchors": ["circom_algebra/src/modular_arithmetic.rs:modulus,add,sub,mul,prefix_sub"]}
{"id": "C02", "title": "Field division", "statement": "Field division a/b succeeds exactly when b is a unit modulo p (for prime p: when b is not 0 mod p); the result q is in [0,p) and q*b = a mod p. Otherwise the caller gets the DivisionByZero error value, never an abort.", "quantifier": "all integers a,b and every p>1", "why_tests_cant": "Infinite operand space; error path must coincide exactly with non-invertibility.", "anchors": ["circom_algebra/src/modular_arithmetic.rs:div", "circom_algebra/src/algebra.rs:ArithmeticExpression::div"]}
{"id": "C03", "title": "Integer quotient and remainder operators agree", "statement": "When the divisor is not 0 mod p, the quotient `\\` and the remainder `%` computed by the compiler satisfy a' = (a\\b)*b' + (a%b) with 0 <= a%b < b', where a',b' are the representatives in [0,p).", "quantifier": "all integers a,b with b not 0 mod p, every p>0", "why_tests_cant": "Universal arithmetic identity over unbounded integers.", "anchors": ["circom_algebra/src/modular_arithmetic.rs:idiv,mod_op"]}
{"id": "C04", "title": "Remainder by zero is reported, not an abort", "statement": "a % b with b = 0 mod p should be reported like the other division operators as a DivisionByZero error. (The code aborts instead: the model proves the negation.)", "quantifier": "all integers a,b with b = 0 mod p", "why_tests_cant": "A test suite only sees this if somebody thought of the zero divisor for this operator.", "anchors": ["circom_algebra/src/modular_arithmetic.rs:mod_op", "circom_algebra/src/algebra.rs:ArithmeticExpression::mod_op", "constraint_generation/src/execute.rs:execute_infix_op"]}
{"id": "C05", "title": "Field exponentiation", "statement": "For every base and every non-negative exponent the compiler's pow is in [0,p) and equals the e-fold product of the base modulo p.", "quantifier": "all integer bases, all natural exponents, every p>0", "why_tests_cant": "Exponents are field-sized; the identity is an induction over the exponent.", "anchors": ["circom_algebra/src/modular_arithmetic.rs:pow"]}
{"id": "C06", "title": "Comparison operators form one total order on signed representatives", "statement": "<,<=,>,>=,==,!= all return 0 or 1 and agree with the integer order on the signed representatives (x for x<=p/2, x-p above); they are mutually consistent and unaffected by adding multiples of p to an operand.", "quantifier": "all integers left,right, every p>1", "why_tests_cant": "The order wraps in the middle of the field; only a proof covers both halves for every prime.", "anchors": ["circom_algebra/src/modular_arithmetic.rs:val,comparable_element,eq,lesser,not_eq,lesser_eq,greater,greater_eq"]}
{"id": "C07", "title": "Boolean operators follow truth tables", "statement": "&&, ||, ! and the truthiness used by if/while/assert: non-zero mod p is true; results are 0/1 and follow the truth tables for every operand, including operands that are not 0/1.", "quantifier": "all integers left,right, every p>2", "why_tests_cant": "Operands range over the whole field, the code does arithmetic mod 2 on normalised values.", "anchors": ["circom_algebra/src/modular_arithmetic.rs:normalize,as_bool,not,bool_or,bool_and"]}
{"id": "C08", "title": "Shift operators: terminate, are dual, and reduce correctly", "statement": "Shifting left by k <= p/2 gives ((x*2^k) AND mask) mod p, shifting right by k<=p/2 gives floor(x/2^k); shifting by k>p/2 equals the opposite shift by p-k; the mutual recursion between the two directions terminates; the error value is returned exactly when the effective amount does not fit a machine word.", "quantifier": "all canonical x, all shift amounts in [0,p), every p>2", "why_tests_cant": "Mutual recursion with a field-sized argument: termination and duality are universally quantified.", "anchors": ["circom_algebra/src/modular_arithmetic.rs:shift_l,shift_r,mask"]}
{"id": "C09", "title": "Bitwise operators and complement", "statement": "&,|,^ on canonical operands compute the bitwise result reduced mod p; complement flips exactly the low bits(p) bits and reduces; complement of complement is the identity on canonical field elements.", "quantifier": "all canonical field elements, every modulus p>1", "why_tests_cant": "Needs a bit-length argument (2^(n-1) <= p < 2^n) for every prime.", "anchors": ["circom_algebra/src/modular_arithmetic.rs:bit_or,bit_and,bit_xor,complement"]}
{"id": "C10", "title": "Batch inversion", "statement": "Inverting a whole list of units with one field inversion returns, position by position, the inverse of each element, for any list length.", "quantifier": "all finite lists of units modulo p", "why_tests_cant": "The prefix-product trick needs an induction over list length.", "anchors": ["circom_algebra/src/modular_arithmetic.rs:multi_inv"]}
{"id": "C11", "title": "Symbolic arithmetic is sound for evaluation", "statement": "If adding, subtracting, multiplying, dividing, negating or raising symbolic expressions yields anything other than the non-quadratic marker, then under every assignment of field values to signals the value of the result equals the field operation applied to the values of the operands.", "quantifier": "all pairs of symbolic expressions, all assignments, every prime", "why_tests_cant": "Expressions and assignments are infinite; equality must hold as polynomials.", "anchors": ["circom_algebra/src/algebra.rs:ArithmeticExpression::{add,mul,sub,div,pow,prefix_sub}"]}
{"id": "C12", "title": "Exact boundary of the quadratic fragment", "statement": "An addition is rejected as non-quadratic exactly when an operand is non-quadratic or both are quadratic; a multiplication is rejected exactly when an operand is non-quadratic or one operand is quadratic and the other is not a number; constant folding of numbers never rejects.", "quantifier": "all pairs of symbolic expressions", "why_tests_cant": "Case analysis over all shapes; wrong rejection or acceptance shows up only on particular shape pairs.", "anchors": ["circom_algebra/src/algebra.rs:ArithmeticExpression::{add,mul,sub}"]}
{"id": "C13", "title": "Generated constraint means equality", "statement": "The rank-1 constraint generated for `lhs === rhs` (or `lhs <== rhs`) is satisfied by an assignment if and only if the two expressions evaluate to the same field element; it exists unless the difference is non-quadratic.", "quantifier": "all expression pairs, all assignments", "why_tests_cant": "Soundness and completeness of each emitted constraint for every witness.", "anchors": ["circom_algebra/src/algebra.rs:transform_expression_to_constraint_form", "constraint_generation/src/execute.rs:execute_statement"]}
{"id": "C14", "title": "Substituting a signal preserves meaning and removes the signal", "statement": "Applying `s := e` to a constraint or to another substitution: under any assignment where s equals e the value is unchanged, and afterwards s no longer occurs (when e does not mention s).", "quantifier": "all constraints, substitutions, assignments", "why_tests_cant": "Universal over linear forms as hash maps and over assignments.", "anchors": ["circom_algebra/src/algebra.rs:Substitution::{new,apply_substitution},raw_substitution,Constraint::apply_substitution"]}
{"id": "C15", "title": "Constraint normalisation preserves solutions", "statement": "Cleaning a constraint (dropping zero coefficients, folding a constant A or B into C) keeps exactly the same satisfying assignments, yields no zero coefficients, and is empty only if every assignment satisfies it.", "quantifier": "all constraints with canonical coefficients, all assignments", "why_tests_cant": "Needs all assignments on both sides.", "anchors": ["circom_algebra/src/algebra.rs:Constraint::fix_constraint,remove_zero_value_coefficients,fix_raw_constraint"]}
{"id": "C16", "title": "Solving a linear constraint for a signal is equivalent to the constraint", "statement": "Isolating a signal with non-zero coefficient in a linear constraint gives s = e with exactly the same satisfying assignments, both in normalised form and in the (coefficient, rest) form; s does not occur in e.", "quantifier": "all linear constraints, all signals occurring in them with non-zero coefficient, all assignments, every prime", "why_tests_cant": "Equivalence over all assignments.", "anchors": ["circom_algebra/src/algebra.rs:clear_signal_from_linear,clear_signal_from_linear_not_normalized,Constraint::clear_signal*"]}
{"id": "C17", "title": "Renumbering signals preserves meaning", "statement": "Shifting signals by a component offset, or renaming by the witness map, leaves the value of every constraint unchanged when the assignment is renamed accordingly; the constant wire stays the constant wire; coefficients of distinct signals are never merged when the renaming is injective.", "quantifier": "all constraints, offsets, injective maps, assignments", "why_tests_cant": "Universal over maps and assignments.", "anchors": ["circom_algebra/src/algebra.rs:Constraint::{apply_offset,apply_correspondence,apply_witness}"]}
{"id": "C18", "title": "Constraint classification is correct", "statement": "A constraint classified as an equality is satisfied exactly when its two signals are equal; one classified as a constant equality is satisfied exactly when its only signal equals one fixed field element; classification into constant-eq/eq/linear/quadratic is exhaustive and exclusive.", "quantifier": "all cleaned constraints with canonical coefficients, all assignments", "why_tests_cant": "Universal over assignments.", "anchors": ["circom_algebra/src/algebra.rs:signal_equals_signal,signal_equals_constant,Constraint::{is_equality,is_constant_equality,is_linear}"]}
{"id": "C19", "title": "Linear elimination (default heuristic) is an equivalence", "statement": "For any list of linear constraints and any set of protected signals, an assignment satisfies all of them if and only if it satisfies the returned constraints and every returned substitution.", "quantifier": "all finite lists of linear constraints, protected sets, assignments, every prime", "why_tests_cant": "Gaussian elimination over arbitrary systems; correctness is an invariant over an unbounded loop.", "anchors": ["circom_algebra/src/simplification_utils.rs:full_simplification,Process_3 functions,treat_constraint_3,normalize_substitutions,create_nonoverlapping_substitutions"]}
{"id": "C20", "title": "Linear elimination (occurrence-count heuristic) is an equivalence for every hash order", "statement": "Same as the previous property for the heuristic used on 350..1000000 constraints, for every iteration order of the hash maps.", "quantifier": "all systems, protected sets, assignments and all iteration orders", "why_tests_cant": "Hash iteration order is nondeterministic; tests see one order.", "anchors": ["circom_algebra/src/simplification_utils.rs:treat_constraint_4,take_signal_4,SignalsInformation,create_nonoverlapping_substitutions_4"]}
{"id": "C21", "title": "Elimination terminates and never aborts", "statement": "Both elimination heuristics terminate on every input system of cleaned linear constraints and never hit a missing-key lookup, a zero pivot or a non-invertible batch.", "quantifier": "all finite systems of cleaned linear constraints and all iteration orders", "why_tests_cant": "Termination and absence of aborts over all inputs.", "anchors": ["circom_algebra/src/simplification_utils.rs:treat_constraint_3,treat_constraint_4,normalize_substitutions"]}
{"id": "C22", "title": "Eliminated signals disappear; protected signals stay", "statement": "No protected signal is ever eliminated; no eliminated signal occurs in the right-hand side of any returned substitution or in a returned constraint; each signal is eliminated at most once.", "quantifier": "all systems, protected sets, iteration orders", "why_tests_cant": "Invariant over all runs; a violation leaves dangling wires in the circuit.", "anchors": ["circom_algebra/src/simplification_utils.rs:create_nonoverlapping_substitutions,check_substitutions"]}
{"id": "C23", "title": "Constraint clusters partition the system by shared signals", "statement": "Clustering puts every non-empty constraint in exactly one cluster; two constraints sharing a signal are in the same cluster; each cluster is connected through shared signals.", "quantifier": "all finite lists of constraints", "why_tests_cant": "Union-find with path compression over arbitrary graphs.", "anchors": ["constraint_list/src/constraint_simplification.rs:build_clusters"]}
{"id": "C24", "title": "Merging equal signals is an equivalence", "statement": "Eliminating signals related by equality constraints keeps exactly the solutions (together with the substitutions); it keeps every protected signal and emits equalities linking all protected signals of a cluster; the representative is fixed by the signal ids and not by the processing order.", "quantifier": "all lists of equality constraints, protected sets, assignments", "why_tests_cant": "Correctness depends on connectivity of arbitrary clusters.", "anchors": ["constraint_list/src/constraint_simplification.rs:eq_cluster_simplification,eq_simplification"]}
{"id": "C25", "title": "Eliminating constant signals is an equivalence", "statement": "Eliminating signals fixed to a constant keeps exactly the solutions of the system. (Violated when one signal is forced to two different constants: the contradiction is dropped, an unsatisfiable circuit becomes satisfiable. Negation proved with a witness; proved for systems with at most one constant per signal; one direction proved unconditionally.)", "quantifier": "all lists of constant equalities, protected sets, assignments", "why_tests_cant": "Only contradictory systems show it; no test writes an unsatisfiable circuit and looks for satisfiability.", "anchors": ["constraint_list/src/constraint_simplification.rs:constant_eq_simplification", "circom_algebra/src/simplification_utils.rs:build_encoded_fast_substitutions", "constraint_list/src/constraint_simplification.rs:simplification"]}
{"id": "C26", "title": "Worker scheduling does not change the simplified system", "statement": "Cluster results arrive from worker threads in any order; the resulting set of constraints and the resulting substitution map are the same for every arrival order (up to list order), and the equality phase's remaining constraints come in the same order.", "quantifier": "all arrival orders (permutations) of cluster results", "why_tests_cant": "Thread schedules cannot be enumerated by tests.", "anchors": ["constraint_list/src/constraint_simplification.rs:eq_simplification,linear_simplification"]}
{"id": "C27", "title": "Simplification is complete: every original solution is a solution of the output", "statement": "Every assignment satisfying all constraints of the flattened circuit satisfies all constraints after simplification, for every optimisation level, round limit and schedule.", "quantifier": "all constraint systems, protected sets, options, schedules, assignments", "why_tests_cant": "Refinement statement over all circuits and all witnesses.", "anchors": ["constraint_list/src/constraint_simplification.rs:simplification", "dag/src/map_to_constraint_list.rs:map"]}
{"id": "C28", "title": "Simplification is sound: every output solution extends to an original solution", "statement": "Every assignment satisfying the simplified constraints can be extended to the eliminated signals (via the substitutions) so that all original constraints hold, without changing the retained signals. (Full statement fails because of C25; proved when no signal is forced to two different constants.)", "quantifier": "all constraint systems, protected sets, options, schedules, assignments", "why_tests_cant": "This is the security property of the optimiser; needs all assignments.", "anchors": ["constraint_list/src/constraint_simplification.rs:simplification"]}
{"id": "C29", "title": "Witness renumbering is an order-preserving bijection fixing the public prefix", "statement": "Retained signals are numbered 0..n-1 without gaps, in the same relative order; wire 0 stays 0; outputs and public inputs keep their numbers.", "quantifier": "all sets of deleted/unused/forbidden signals and signal counts", "why_tests_cant": "Queue-based renumbering over arbitrary sets.", "anchors": ["constraint_list/src/constraint_simplification.rs:rebuild_witness"]}
{"id": "C30", "title": "Every signal in an emitted constraint has a witness position", "statement": "After simplification each signal occurring in a stored constraint is in the witness map, so writing the constraint file never aborts on an unknown signal.", "quantifier": "all constraint systems and options", "why_tests_cant": "A dangling signal needs a particular interplay of phases.", "anchors": ["constraint_list/src/constraint_simplification.rs:simplification,rebuild_witness", "circom_algebra/src/algebra.rs:apply_correspondence", "constraint_list/src/r1cs_porting.rs"]}
{"id": "C31", "title": "Witness list and symbol file are consistent with the renumbering", "statement": "The exported witness list is the inverse of the renumbering (position i holds the original id mapped to i), and the symbol file prints -1 for a signal exactly when it was eliminated.", "quantifier": "all renumberings", "why_tests_cant": "Universal over maps.", "anchors": ["constraint_list/src/lib.rs:get_witness_as_vec", "constraint_list/src/sym_porting.rs", "constraint_list/src/state_utils.rs"]}
{"id": "C32", "title": "Constraint storage is a faithful array", "statement": "Reading back a stored or replaced constraint yields the same constraint (same coefficients on the same signals); replacing one entry never changes another; ids handed out stay valid; extracting with a predicate keeps exactly the entries satisfying it, in order.", "quantifier": "all histories of add/replace/extract operations and all constraints", "why_tests_cant": "Histories are unbounded; coefficients are interned and byte-encoded.", "anchors": ["circom_algebra/src/constraint_storage/logic.rs", "circom_algebra/src/constraint_storage/mod.rs"]}
{"id": "C33", "title": "Constant interning is injective and stable", "statement": "Inserting a constant returns the same id for equal constants and different ids for different constants; the constant read at an id is the one inserted; ids never change as more constants are inserted.", "quantifier": "all insertion histories", "why_tests_cant": "Unbounded histories.", "anchors": ["constant_tracking/src/lib.rs:ConstantTracker"]}
{"id": "C34", "title": "Signal numbering in the template graph", "statement": "Every signal of the instantiated component tree gets a distinct number, numbers are exactly 1..n, in the main component outputs come first, then public inputs, then private inputs, then intermediates, then subcomponents; a component occupies a contiguous range.", "quantifier": "all construction histories of the template graph", "why_tests_cant": "Unbounded trees and histories.", "anchors": ["dag/src/lib.rs:DAG,Node,Tree", "constraint_generation/src/execution_data/executed_template.rs:build_wires,build_connexions"]}
{"id": "C35", "title": "Flattening keeps all constraints exactly once", "statement": "The constraint lists handed to the simplifier (constant equalities, equalities, linear, quadratic) together contain exactly one copy of each cleaned constraint of each component instance, shifted by the instance's offset.", "quantifier": "all template graphs", "why_tests_cant": "Unbounded component trees.", "anchors": ["dag/src/map_to_constraint_list.rs", "constraint_list/src/lib.rs:EncodingIterator"]}
{"id": "C36", "title": "Unsimplified witness list is complete", "statement": "Without simplification, the exported witness list is a permutation of 0..n (each signal exactly once, wire 0 first).", "quantifier": "all template graphs", "why_tests_cant": "Unbounded component trees.", "anchors": ["dag/src/witness_producer.rs:produce_witness"]}
{"id": "C37", "title": "R1CS file round trip", "statement": "Reading a constraint file written by the compiler gives back the header values, all constraints with the same coefficients on the same wires, the wire map and the custom gate tables, whenever the values fit the field widths of the format.", "quantifier": "all headers, constraint lists, wire maps and custom gate tables within the format's ranges", "why_tests_cant": "Binary format over unbounded lists; offsets patched after the fact.", "anchors": ["constraint_writers/src/r1cs_writer.rs", "constraint_writers/src/r1cs_reader.rs"]}
{"id": "C38", "title": "R1CS sections have exact recorded sizes", "statement": "Each section's recorded byte length equals the number of bytes written for its body, so sections can be skipped; the file is the header followed by exactly the announced number of sections.", "quantifier": "all written files", "why_tests_cant": "Sizes are back-patched; any miscount corrupts only particular inputs.", "anchors": ["constraint_writers/src/r1cs_writer.rs:start_section,end_section"]}
{"id": "C39", "title": "Terms of a linear combination are written in ascending wire order", "statement": "Wires within each linear combination of the constraint file appear in ascending numeric order. (Violated: they are sorted as little-endian byte strings; negation proved with wires 1 and 256; proved for wires below 256.)", "quantifier": "all linear combinations", "why_tests_cant": "Shows only with wire ids at least 256.", "anchors": ["constraint_writers/src/r1cs_writer.rs:write_linear_expression"]}
{"id": "C40", "title": "Array cell addressing is a bijection", "statement": "For every array shape, the flat position computed for a valid full index is below the number of cells, distinct indices give distinct positions, and converting a position back to an index is the inverse.", "quantifier": "all shapes and all valid indices", "why_tests_cant": "Shapes are unbounded lists.", "anchors": ["program_structure/src/utils/memory_slice.rs:get_initial_cell,get_access_index"]}
{"id": "C41", "title": "Array writes and reads", "statement": "Writing a sub-array of exactly matching shape and reading at the same access gives back the written values; reading at any access with a different prefix index gives what was there before; shapes and cell counts never change.", "quantifier": "all arrays, accesses and values", "why_tests_cant": "Unbounded shapes and contents.", "anchors": ["program_structure/src/utils/memory_slice.rs:insert_values,access_values"]}
{"id": "C42", "title": "Out-of-range flat indices are reported", "statement": "Accessing a flat cell index outside the array returns an out-of-bounds error. (Violated for index = number of cells: the guard is off by one and the access aborts; negation proved.)", "quantifier": "all arrays and indices", "why_tests_cant": "Off-by-one at the exact boundary.", "anchors": ["program_structure/src/utils/memory_slice.rs:get_access_index,access_value_by_index,insert_value_by_index"]}
{"id": "C43", "title": "No execution path assigns a signal twice", "statement": "If the compiler accepts the assignments of a template body with branches on unknown conditions, no choice of branch outcomes assigns the same signal twice; and when it records a signal as definitely assigned, every choice of outcomes assigns it.", "quantifier": "all branching programs and all branch outcomes", "why_tests_cant": "Exponentially many paths in unbounded nesting.", "anchors": ["constraint_generation/src/assignment_utils.rs:perform_signal_assignment", "constraint_generation/src/execute.rs:execute_conditional_statement"]}
{"id": "C44", "title": "Branch bookkeeping is balanced", "statement": "Executing any statement leaves the stack of pending unknown conditions as it found it. (Violated by while loops: a loop that runs 0 times leaves an extra entry, one that runs n>=2 times removes n-1 entries of enclosing branches; a loop that runs twice inside the then-branch of an unknown if/else aborts the compiler, and a signal assigned once in each branch is refused when one branch also has a loop. Negation proved; exact net effect proved.)", "quantifier": "all statements", "why_tests_cant": "Depends on iteration count and nesting.", "anchors": ["constraint_generation/src/execute.rs:execute_statement(While),execute_conditional_statement"]}
{"id": "C45", "title": "Compile-time known values are right", "statement": "If constraint generation considers a variable known with value v at the end of a body, then every concrete execution of that body (any values of the unknown inputs, any number of loop iterations) ends with that variable equal to v. (Violated for loops with unknown condition: two symbolic passes are not a fixpoint; negation proved with a three-step dependency chain; proved when two passes reach a fixpoint, in particular for loop bodies without nested branches.)", "quantifier": "all programs of the variable fragment, all inputs, all iteration counts", "why_tests_cant": "Abstract-interpretation soundness over all programs and inputs.", "anchors": ["constraint_generation/src/execute.rs:execute_statement,execute_conditional_statement,perform_assign"]}
{"id": "C46", "title": "Constant folding records are joins over all visits", "statement": "An expression is replaced by a constant only if every symbolic evaluation of it produced that same number; once two visits differ (or one is not a number) it is never replaced again, independent of the order of visits. (The last part is about visit histories.)", "quantifier": "all visit histories of an expression", "why_tests_cant": "Histories are unbounded.", "anchors": ["constraint_generation/src/execution_data/analysis.rs:Analysis,ValuePOS"]}
{"id": "C47", "title": "Comment removal keeps byte positions and code", "statement": "For every source text, comment removal either reports an unclosed block comment, exactly if a comment opened by /* outside comments is never closed, or returns a text of the same byte length in which every character outside comments is at the same byte offset and all comment bytes except line-ending newlines of line comments are blanks. A reported unclosed comment is located at the byte offset of its opening; text inside string literals is not treated as a comment.", "quantifier": "all source texts (all Unicode strings)", "why_tests_cant": "Hand-written state machine over all strings; error locations rely on byte offsets.", "anchors": ["parser/src/parser_logic.rs:preprocess"]}
{"id": "C48", "title": "Functions accepted by the return check always return", "statement": "If a function body passes the all-paths-return check then no terminating execution of the body, for any branch outcomes and loop iteration counts, falls off the end.", "quantifier": "all function bodies, all branch outcomes", "why_tests_cant": "All paths of all programs.", "anchors": ["type_analysis/src/analyzers/functions_all_paths_with_return_statement.rs"]}
{"id": "C49", "title": "Include processing visits each reachable file exactly once and terminates", "statement": "Starting from the main file, include processing takes each file at most once, takes every transitively included file, stops also for cyclic includes, and succeeds exactly if every reachable file can be read and parsed and every name included is found.", "quantifier": "all finite include graphs (cyclic or not) and resolution functions", "why_tests_cant": "All graphs.", "anchors": ["parser/src/include_logic.rs:FileStack", "parser/src/lib.rs:run_parser"]}
{"id": "C50", "title": "Custom-gate pragma check finds every offending include chain", "statement": "The check reports a problem exactly when some file without the custom-templates pragma reaches, through includes, a file that uses custom templates; it terminates on cyclic includes.", "quantifier": "all include graphs, the main file being readable at the path given", "why_tests_cant": "All graphs including cycles.", "anchors": ["parser/src/include_logic.rs:IncludesGraph"]}
{"id": "C51", "title": "Input name table lookup", "statement": "Every main input of the circuit is found in the generated open-addressing table under the hash of its name, with its start and size, by the lookup of the C++ calculator and by that of the WebAssembly calculator, when input hashes are distinct and the table is large enough; a name that is no input is reported as not found; construction and lookup terminate.", "quantifier": "all lists of main inputs and table sizes", "why_tests_cant": "Collisions depend on hash values of arbitrary names.", "anchors": ["code_producers/src/c_elements/c_code_generator.rs:generate_hash_map", "code_producers/src/c_elements/common/calcwit.cpp:getInputSignalHashPosition", "code_producers/src/wasm_elements/wasm_code_generator.rs:get_input_signal_map_position_generator"]}
{"id": "C52", "title": "Variable scoping", "statement": "A variable declared in a block shadows outer ones until the block ends, after which the outer value is visible again unchanged by the inner declaration; assignments reach the innermost declaration.", "quantifier": "all histories of block entry/exit, declarations and assignments", "why_tests_cant": "Unbounded histories.", "anchors": ["program_structure/src/utils/environment.rs:RawEnvironment,VariableBlock"]}
{"id": "C53", "title": "Tag propagation only keeps shared tags", "statement": "After assigning expressions to a signal array, a propagated tag is kept only if every assigned value carried it with the same value; tags declared on the signal are never lost; order of assignments does not matter for which tags survive.", "quantifier": "all sequences of assignments and tag sets", "why_tests_cant": "Histories of assignments.", "anchors": ["constraint_generation/src/assignment_utils.rs:perform_tag_propagation,join_tags_propagation,compute_propagated_tags"]}
{"id": "C54", "title": "Temporaries of generated expressions never clash", "statement": "The slot numbers assigned to intermediate results of an expression in the generated witness code are pairwise distinct among simultaneously live results, and all are below the declared stack size.", "quantifier": "all expression trees", "why_tests_cant": "Unbounded trees.", "anchors": ["compiler/src/ir_processing/build_stack.rs"]}
{"id": "C56", "title": "Constraint file does not depend on hash iteration order", "statement": "Two runs that hand the file writer the same header, wire map, custom gate tables and constraints with equal coefficient maps produce byte-identical constraint files, whatever order the hash maps are iterated in.", "quantifier": "all written files, all iteration orders", "why_tests_cant": "Hash iteration order is randomised per process; tests see only a few orders.", "anchors": ["constraint_writers/src/r1cs_writer.rs:49-72", "constraint_writers/src/r1cs_writer.rs:282-308"]}
{"id": "C57", "title": "Witness code and template graph agree on signal numbers", "statement": "The address that the witness code computes for a signal access (start of the declared signal or bus, row-major array index, bus field offset, offset of the subcomponent) is the number that the template graph, and hence the constraint and symbol files, give to the signal with the printed name.", "quantifier": "all templates, dimensions, nested buses and index tuples", "why_tests_cant": "Two independent computations over unbounded dimensions and nestings.", "anchors": ["constraint_generation/src/execution_data/executed_template.rs:export_to_circuit,build_wires,build_connexions", "constraint_generation/src/execution_data/executed_bus.rs:build_bus_info", "dag/src/lib.rs:add_edge"]}
{"id": "C58", "title": "Sizes of the witness program match the component tree", "statement": "The totals put in the witness program (signals, input and output signals, created components) are the numbers of signals, of input and output signals and of component instances of the component tree.", "quantifier": "all programs", "why_tests_cant": "Unbounded component trees.", "anchors": ["constraint_generation/src/execution_data/executed_program.rs:produce_dags_stats"]}
{"id": "C55", "title": "Header of the constraint file agrees with its contents", "statement": "The header of the constraint file announces the modulus, the number of listed wires, the number of listed constraints, the numbers of outputs, public and private inputs of the main component, and the number of signals of the program plus one; wire i is signal i for the constant, the outputs and the public inputs; wires are listed in increasing order of signal; every wire in a constraint is below the number of wires; and 1 + outputs + public inputs + private inputs is at most the number of wires.", "quantifier": "all programs, all optimisation settings", "why_tests_cant": "The relation between header and contents is computed in different modules and depends on what the simplifier removes.", "anchors": ["constraint_list/src/r1cs_porting.rs:port_r1cs", "dag/src/r1cs_porting.rs:write"]}
{"id": "C59", "title": "Custom gate tables describe the custom gates of the program", "statement": "The table of used custom gates has one entry per custom gate template with its name and parameters. The table of applied gates has one entry per custom gate instance, in component order, naming a used gate of the same name and the wires of the instance's signals in declaration order. Writing the tables never aborts, because simplification keeps every custom gate signal.", "quantifier": "all programs with custom gates, all optimisation settings", "why_tests_cant": "Depends on which signals the simplifier keeps in unbounded circuits.", "anchors": ["constraint_list/src/r1cs_porting.rs:58-117", "dag/src/r1cs_porting.rs:60-113", "dag/src/map_to_constraint_list.rs:map_tree"]}
{"id": "C60", "title": "End to end: the written constraint file means the same as the program", "statement": "Without simplification, an assignment satisfies the constraints read back from the written file exactly when every constraint of every component instance holds. With simplification, every solution of the program, read through the wire map of the file, satisfies the file; and every solution of the file extends to a solution of the program with the same values on all listed wires.", "quantifier": "all programs, optimisation settings, thread schedules and hash orders, all assignments", "why_tests_cant": "Composition of collection, simplification, renumbering and serialisation over all assignments.", "anchors": ["dag/src/lib.rs", "dag/src/map_to_constraint_list.rs", "constraint_list/src/constraint_simplification.rs", "constraint_list/src/r1cs_porting.rs", "constraint_writers/src/r1cs_writer.rs"]}
{"id": "C61", "title": "Assigning an array of another size touches only the common cells", "statement": "Assigning to a variable array (or sub-array) a value with the same number of dimensions but other sizes overwrites exactly the cells whose index exists on both sides, keeps all other cells and the array's dimensions, reports the mismatch (a warning), and never aborts; if the access itself is out of range nothing is written.", "quantifier": "all arrays, accesses and values with equal number of dimensions", "why_tests_cant": "The recursive copy runs over unbounded shapes and numbers of dimensions.", "anchors": ["program_structure/src/utils/memory_slice.rs:insert_values,check_correct_dims", "constraint_generation/src/execute.rs:treat_result_with_memory_error_void"]}
{"id": "C62", "title": "Generated constraints mean the program's equalities", "statement": "For every concrete run of a template body, the constraints generated for it hold under the signal values of the run exactly when every `===` and `<==` met in the run compares equal values. (Violated after a loop with unknown condition that two symbolic passes do not settle: the constraint is built from a wrong known value. Negation proved; proved when every such loop is settled by two passes, in particular for loop bodies without nested branches.)", "quantifier": "all bodies of the fragment, all inputs, all iteration counts", "why_tests_cant": "Relates one symbolic run to all concrete runs of all programs.", "anchors": ["constraint_generation/src/execute.rs:execute_statement(ConstraintEquality,Substitution,IfThenElse,While)"]}
{"id": "C63", "title": "Names and loading of main inputs", "statement": "The names under which inputs of the main component can be given are pairwise distinct, and the elementary ones (bus fields and array elements of buses written out) cover every input signal exactly once with the right start and size. Giving every input signal once, under any mixture of names and in any order, makes loading succeed, puts each value at its signal and starts the calculation exactly once after the last value; conversely the calculation is started only when every input signal has been set.", "quantifier": "all bus declarations, all lists of declared inputs, all lists of named values", "why_tests_cant": "Nesting of buses and arrays, names and orders of values are unbounded.", "anchors": ["compiler/src/circuit_design/build.rs:main_input_list", "compiler/src/circuit_design/build.rs:get_info_buses", "constraint_generation/src/execution_data/executed_bus.rs:build_bus_info", "code_producers/src/c_elements/common/calcwit.cpp:setInputSignal", "code_producers/src/c_elements/common/main.cpp:loadJson"]}
{"id": "C64", "title": "Run-time index of an array access is the value of the index expression", "statement": "Every index expression that is not a literal is turned into a machine integer such that the generated witness programs use the integer represented by the field value of the index expression. (Violated: sub-expressions outside 32 bits are converted one by one before the arithmetic, so a wrapped sub-expression gives another address or an abort, and the conversion itself accepts some elements that are no 32-bit integers. Negations proved; proved when every converted part is a 32-bit integer and no overflow occurs.)", "quantifier": "all index expressions, all primes, all values of variables", "why_tests_cant": "Expressions nest without bound and values range over the field.", "anchors": ["compiler/src/intermediate_representation/translate.rs:check_if_possible_to_usize_single,convert_to_usize_single,filter_indexes", "code_producers/src/c_elements/bn128/fr.asm:Fr_toInt", "compiler/src/intermediate_representation/compute_bucket.rs:produce_c,produce_wasm"]}
{"id": "C65", "title": "Compile-time addresses are row-major", "statement": "The address expression generated for an access with indices and bus fields evaluates to base plus row-major position of the indices plus the offsets of the fields; for indices in range the blocks of elements lie inside the array, blocks of distinct indices are disjoint and ordered lexicographically; the linear position of a component in an array of components inverts the enumeration of its indices; constant folding of addresses keeps their value.", "quantifier": "all dimension lists, index lists, element sizes, chains of bus fields, address expressions", "why_tests_cant": "Dimensions, index values and nesting are unbounded.", "anchors": ["compiler/src/intermediate_representation/translate.rs:compute_full_address,compute_jump", "compiler/src/ir_processing/reduce_stack.rs", "compiler/src/intermediate_representation/compute_bucket.rs"]}
{"id": "C66", "title": "Run-time position of signals in arrays of different components", "statement": "For a component of an array whose components are instances with different parameters, the generated programs compute the position of an accessed input or output from tables so that it equals the offset of the signal plus the row-major position of all given indices plus the offsets of all bus fields of the access. (Violated: wasm when an index itself contains such an access; C++ reads with several but not all indices; C++ writes with several indices into arrays of buses. Negations proved; proved in all other cases.)", "quantifier": "all tables, signals, chains of indices and fields, index values", "why_tests_cant": "Dimensions, numbers of fields, nesting of buses and tables are unbounded.", "anchors": ["compiler/src/intermediate_representation/load_bucket.rs:produce_wasm,produce_c (LocationRule::Mapped)", "compiler/src/intermediate_representation/store_bucket.rs:produce_wasm,produce_c", "compiler/src/intermediate_representation/call_bucket.rs:produce_wasm,produce_c"]}
{"id": "C67", "title": "Layout tables reach the witness programs unchanged", "statement": "The tables describing inputs and outputs of component instances and fields of buses that the compiler writes are the ones the witness programs use: the C++ program reads back exactly the written definitions, in the wasm memory every definition is reachable through the pointers, and the code by which a signal is accessed selects the definition of that signal in the table of every instance. (Violated: buses with more than ten fields overrun an array of the C++ program; signals declared only for some parameters shift the codes or make the compiler panic. Negations proved; proved otherwise.)", "quantifier": "all lists of instances, signals and buses", "why_tests_cant": "Numbers of instances, signals, fields and dimensions are unbounded.", "anchors": ["code_producers/src/c_elements/c_code_generator.rs:generate_dat_io_signals_info,generate_dat_bus_field_info", "code_producers/src/c_elements/common/main.cpp:loadCircuit", "code_producers/src/wasm_elements/wasm_code_generator.rs:generate_data_*", "compiler/src/circuit_design/build.rs:build_input_output_list", "compiler/src/intermediate_representation/translate.rs:get_signal_id"]}
{"id": "C68", "title": "Array assignments copy exactly the elements of the source that fit", "statement": "The generated assignment of an array copies min(source size, destination size) consecutive elements from source to destination and changes nothing else, for sizes fixed at compile time and for sizes that depend on the instance of a component, in C++ and in wasm. (Violated: wasm copies a template-dependent source completely even if the destination is smaller and overwrites the elements behind a variable; C++ copies one element when the size is 0; arrays of different shapes are copied as a linear prefix while the symbolic executor assigns the common cells. Negations proved; proved otherwise.)", "quantifier": "all sizes, offsets, memory contents and instance choices", "why_tests_cant": "Sizes, instances and contents are unbounded; the failures need sizes 0 or different shapes.", "anchors": ["compiler/src/intermediate_representation/store_bucket.rs:produce_c,produce_wasm", "compiler/src/intermediate_representation/types.rs:SizeOption", "code_producers/src/wasm_elements/wasm_code_generator.rs", "compiler/src/intermediate_representation/translate.rs:perform_assignment"]}
{"id": "C69", "title": "A sub-component runs exactly once, after its last input", "statement": "In every execution of a template that assigns all inputs of the sub-components it touches, both generated programs run each of these components exactly once, right after the last assignment to one of its inputs, and no assertion of the C++ program about missing inputs fails, for both values of the sanity option. (Violated: the C++ program never runs an anonymous component whose last argument is a conditional expression with a false condition; a component whose input is assigned only under an unmet condition is run by C++ but not by wasm; an assignment of an empty array after the last input runs the component again. Negations proved; proved otherwise.)", "quantifier": "all instruction lists with arbitrarily nested conditions and loops, all executions of them", "why_tests_cant": "Nesting, number of loop iterations and orders of assignments are unbounded, and the analysis decides once for all executions.", "anchors": ["compiler/src/ir_processing/build_inputs_info.rs:visit_list,visit_branch,visit_loop,visit_address_type", "compiler/src/intermediate_representation/store_bucket.rs:produce_c,produce_wasm", "compiler/src/intermediate_representation/call_bucket.rs:produce_c,produce_wasm"]}
{"id": "C70", "title": "A component counts as fed exactly when all its inputs are assigned", "statement": "The compiler lets the outputs of a sub-component be read, and accepts the end of the template, exactly when every signal of every input of the component (arrays, buses, buses in buses) has been assigned; it accepts a sequence of assignments exactly when no signal is assigned twice, without aborting; and postponing assignments until the component can be initialised changes neither verdict nor result. (Violated: assignments in both branches of a condition are counted twice, so that a component with an unassigned input counts as fed or a counter is lowered below zero; assigning an empty array inside a bus counts the bus again; postponed conditional assignments to buses are carried out in another order and a double assignment is accepted. Negations proved; proved for unconditional non-empty assignments, and with conditions when each signal is assigned by one statement.)", "quantifier": "all input structures (nested buses and arrays of any size, every bus with a signal), all sequences of assignments, all splits into assignments before and after the initialisation", "why_tests_cant": "Structures nest arbitrarily deep and the orders of partial assignments (cells, rows, whole buses, fields) are unbounded.", "anchors": ["constraint_generation/src/environment_utils/component_representation.rs:initialize_component,assign_value_to_signal_init,assign_value_to_bus_init,assign_value_to_bus_field_init,update_unassigned_inputs,has_unassigned_inputs", "constraint_generation/src/environment_utils/bus_representation.rs:assign_value_to_field,completely_assign_bus,has_unassigned_fields", "constraint_generation/src/assignment_utils.rs:perform_signal_assignment,perform_bus_assignment"]}
{"id": "C71", "title": "Desugaring keeps the meaning of templates and functions", "statement": "The pass that takes calls, conditional expressions and inline arrays out of expressions before code generation keeps the meaning of every program: started in the same state, rewritten and original code return the same value and leave the same values in all variables (functions, recursive ones included, return the same), and the code generator accepts the rewritten code (no inline array or conditional expression left, no call returned directly). (Violated: calls in loop conditions and in unbraced loop bodies are evaluated once; x = [x[1], x[0]] does not exchange; recursive functions whose recursive call is in a branch of a conditional expression or in an unbraced branch never return; conditional expressions in unbraced branches, in conditions of others and in asserts are left and make the compiler panic; an equality between an inline array and a call is dropped. Negations proved; proved for all other programs.)", "quantifier": "all programs (templates and mutually recursive functions, nested expressions, arrays of any dimensions, loops), all arithmetics, all starting states, all numbers of iterations and depths of calls", "why_tests_cant": "Programs and nesting are unbounded; the faults appear only for particular combinations of constructs and run-time values (loops executed several times, recursion, aliasing).", "anchors": ["compiler/src/hir/sugar_cleaner.rs:clean_sugar,extend_statement,extend_expression,sugar_filter,rmv_sugar,map_stmts_with_sugar,map_init_blocks,split_return,into_single_substitution,into_single_constraint_equality,rhe_switch_case,rhe_array_case,lhe_array_ce", "compiler/src/intermediate_representation/translate.rs:translate_expression,translate_statement,get_expression_size"]}
{"id": "C72", "title": "Constant folding and dead code removal keep the meaning of templates", "statement": "If the symbolic execution of a template instance succeeds, removing the statements it did not reach and replacing every expression for which it always found the same number by that number never aborts and does not change what the template computes: for all signal values, the filtered code assigns the same values to the same signals, makes the same comparisons in the same order and ends with the same variables. (Violated: loops with unknown condition are executed only twice, so a value that changes in the third iteration is folded; branches of inline conditionals with unknown condition are not evaluated, so a value recorded while the condition was known is used for all times; loops with empty bodies are removed even if they do not end. Negations proved; proved when the visits left out there agree with the records, in particular for loops with known conditions and for flat loop bodies.)", "quantifier": "all template bodies of the scalar fragment (nested branches, loops, blocks, inline conditionals), all primes, all signal values, all numbers of iterations", "why_tests_cant": "Programs and signal values are unbounded; a wrongly folded value shows only for particular inputs and iteration counts, and the constraints stay satisfied or not independently of the folded witness code.", "anchors": ["constraint_generation/src/execution_data/filters.rs:apply_unused,clean_dead_code,apply_computed,apply_computed_expr,computed_or_original", "constraint_generation/src/execution_data/analysis.rs", "constraint_generation/src/execution_data/executed_program.rs:add_node_to_scheme", "constraint_generation/src/execute.rs:execute_statement,execute_expression,execute_conditional_statement"]}
{"id": "C73", "title": "Templates accepted by the known/unknown analysis have no constraints under unknown conditions", "statement": "If the static analysis of a template reports nothing, constraint generation of no instance of the template fails because a constraint is emitted under a condition whose value is unknown, whatever the values of the parameters and the number of iterations; and the analysis always ends. (The first part is violated: the variables assigned in a loop are not handed on, so an outer loop or branch does not see that they may become unknown; parameters count as known even after they are assigned; a variable initialised with itself counts as known. Negations proved; proved for templates whose branches and loop bodies assign or declare outside of inner loops every variable they assign, with parameters never assigned and declarations initialised without reading the declared variable.)", "quantifier": "all template bodies of the scalar fragment (nested branches, loops, blocks, inline conditionals), all parameter values, all inputs, all iteration counts, all primes", "why_tests_cant": "Soundness of a data-flow analysis with a fixed point over loops quantifies over all programs and all executions; the failures need nested loops in which a variable changes its status in a later iteration.", "anchors": ["type_analysis/src/analyzers/unknown_known_analysis.rs:unknown_known_analysis,analyze,tag,check_modified", "program_structure/src/utils/environment.rs:merge,hashmap_union", "constraint_generation/src/execute.rs:execute_statement,execute_conditional_statement"]}
{"id": "C74", "title": "No anonymous component or tuple survives desugaring", "statement": "A template that comes out of the removal of syntactic sugar contains neither anonymous components nor tuples, so that the later phases, which abort on them, never see one; and on every template the user can write the pass ends with a template or with error reports, never with an abort. (The first part is violated: the checks do not look inside an anonymous component under `parallel`, so `parallel A()(1 + B()(x))` and `parallel A(B()(x))(y)` keep the inner anonymous component. Negation proved; proved for all templates in which the checks also hold for anonymous components under `parallel`.)", "quantifier": "all template bodies (nested statements, loops, tuples and anonymous components nested to any depth), all sets of templates, all ways to name the generated components and counters", "why_tests_cant": "Nesting of expressions and statements is unbounded, and whether an anonymous component escapes depends on the combination of the constructs around it.", "anchors": ["parser/src/syntax_sugar_remover.rs:apply_syntactic_sugar,check_anonymous_components_statement,check_anonymous_components_expression,remove_anonymous_from_statement,remove_anonymous_from_expression,check_tuples_statement,check_tuples_expression,remove_tuples_from_statement,remove_tuple_from_expression", "program_structure/src/abstract_syntax_tree/expression_impl.rs:contains_anonymous_comp,contains_tuple"]}
{"id": "C75", "title": "Desugaring anonymous components and tuples keeps the meaning of templates", "statement": "Anonymous components mean what the manual says: evaluating one makes an instance of the template with the given parameters, gives every input the expression written for it (by position or by name), and its values are the outputs in order of declaration; a tuple is assigned element by element in order. The desugared template leaves the same values in all variables, makes the same signal assignments and checks in the same order, and makes the same instances with the same parameters and inputs in the same order; no two instances share a place, and in loops every instance lies inside the generated component array. (Violated: in `(a, b) = (1, A()(a))` the component gets the old value of `a`, since all generated statements are put before the assignments; a user variable with the name of a generated loop counter makes two instances fall together. Negations proved; proved for all other templates that run.)", "quantifier": "all template bodies (branches, nested loops, blocks, nested tuples and anonymous components, named and positional inputs, parallel), all value domains and operators, all starting environments, all iteration counts", "why_tests_cant": "Programs, nesting and iteration counts are unbounded; a wrong order or index shows only when variables are reassigned between uses or loops are executed repeatedly.", "anchors": ["parser/src/syntax_sugar_remover.rs:remove_anonymous_from_statement,remove_anonymous_from_expression,remove_tuples_from_statement,remove_tuple_from_expression,apply_syntactic_sugar", "mkdocs/docs/circom-language/anonymous-components-and-tuples.md"]}
{"id": "C76", "title": "Symbolic execution on arrays gives the right constraints", "statement": "Template bodies over arrays mean what indexing, inline arrays, uniform arrays and assignments to parts of arrays mean: when the compiler accepts a body, then for all values of the signals the constraints generated hold exactly if every `<==` and `===` met when the body is executed with these values compares arrays that are equal cell by cell, and every cell the compiler takes for a known value has that value. (Violated: a row read at a position unknown to the compiler, or an array chosen by an inline conditional with unknown condition, is replaced by a single unknown cell; assigning it changes only the first cell of the target, so `r = m[in]; out <== r[1]` gives the constraint `out = 0`; used in an inline array it aborts the compiler. Negations proved; proved for all executions without such a replacement, in particular for all bodies in which every indexed read goes down to one cell.)", "quantifier": "all template bodies (arrays of any number of dimensions, nested loops with known conditions, branches with known or unknown conditions, known or unknown indices), all values of the signals, all primes and other moduli > 1", "why_tests_cant": "Programs, dimensions and values are unbounded; a stale cell is seen only for inputs in which the unknown index or condition takes the other value.", "anchors": ["constraint_generation/src/execute.rs:execute_expression,execute_variable,execute_signal,perform_assign,execute_conditional_statement", "program_structure/src/utils/memory_slice.rs:insert_values,access_values"]}
{"id": "C77", "title": "Accepted programs meet no value of the wrong kind or dimension", "statement": "When the type checker accepts a program, no execution of it, whatever the values of conditions, positions and numbers of iterations and however deep its calls, uses a component where a number or array is needed or the reverse, uses a value with a wrong number of dimensions, passes a wrong number of arguments, assigns a component of another template, or calls a definition that was dropped from the archive; the main component is an instance of its template whose ports have the dimensions in the text. The checker ends on every program. (Violated: a value chosen by an unknown condition or read at an unknown position has no dimensions in the execution; a variable in a block with the name of a component or signal; a port declared in both branches of a conditional with different dimensions; the checker does not end on a recursive function that adds a dimension to its argument; it rejects correct programs such as `return h(g(x), g(y))`. Negations proved; proved for all programs whose signals and components have names of their own in their template, for executions in which a replaced value fits everywhere.)", "quantifier": "all programs of the fragment (variables, signals, components, arrays, ports, functions, templates; no buses, no tags), all executions, all depths of calls, all answers of the guess of function types", "why_tests_cant": "Programs, executions and call depths are unbounded; the checker types each body once for a tuple of argument dimensions and the execution runs it for every value.", "anchors": ["type_analysis/src/analyzers/type_check.rs:type_check,type_statement,type_expression,apply_access_to_symbol,type_function,type_template", "type_analysis/src/analyzers/type_given_function.rs:type_given_function", "type_analysis/src/analyzers/type_register.rs:get_instance,add_instance", "type_analysis/src/analyzers/functions_free_of_template_elements.rs:free_of_template_elements", "type_analysis/src/analyzers/no_returns_in_template.rs:free_of_returns", "constraint_generation/src/execute.rs:execute_expression,execute_statement,perform_assign"]}
{"id": "C78", "title": "Accepted programs look up no missing name", "statement": "When the symbol analysis accepts a program, every name an execution looks up, in expressions and as the target of an assignment, is a variable, signal or component of the environment at that point, whatever branches are taken, also when both branches of a conditional are executed, and however deep the calls.", "quantifier": "all programs of the fragment (no buses, no tags), all executions, all depths of calls", "why_tests_cant": "Programs and executions are unbounded; the analysis sees each branch once with nested scopes, the execution keeps signals and components in flat maps and may skip or run both branches.", "anchors": ["type_analysis/src/analyzers/symbol_analysis.rs:check_naming_correctness,analyze_symbols,analyze_statement,analyze_expression,add_symbol_to_block", "constraint_generation/src/execute.rs:execute_expression,perform_assign"]}
{"id": "C79", "title": "The instructions do what the program text says", "statement": "The instructions made for a function or template do what its text says: executed on a flat memory, whatever it contained before, with the constants, positions and arena sizes chosen by the compiler and after the passes on instructions, they fail exactly when the text says that an `assert` or `===` fails or the loops go on, and otherwise print the same lines, return the elements of the same array and leave in the place of every signal the value the text gives it; no access leaves the memory of the function or template. (Violated: calls inside of `log` keep an arena of 200 places whatever the function needs; `s === f(x)` with an array-valued function compares the first element only and `f(x) === s` reads beyond the result; `s === x.tag` aborts the compiler although `x.tag === s` is fine. Negations proved; proved for all other programs of the fragment.)", "quantifier": "all programs of the fragment (functions, recursion, arrays of any number of dimensions, loops, branches, blocks, tags, parameters, logs; no components, no buses), all values of signals and arguments, all contents of uninitialised memory, all fields in which small sums and products are exact (all primes supported but goldilocks)", "why_tests_cant": "Programs, dimensions, values and depths of calls are unbounded; scopes are mapped to overlapping ranges of one memory and a wrong offset shows only when two live variables meet.", "anchors": ["compiler/src/intermediate_representation/translate.rs:translate_code,translate_statement,translate_expression,ProcessedSymbol,compute_full_address,initialize_signals,initialize_constants,initialize_parameters,fold,get_expression_size", "compiler/src/ir_processing/reduce_stack.rs", "compiler/src/ir_processing/set_arena_size.rs", "compiler/src/circuit_design/build.rs:build_circuit", "compiler/src/circuit_design/function.rs:produce_c", "compiler/src/intermediate_representation/*_bucket.rs:produce_c"]}
{"id": "C80", "title": "With the prime goldilocks the C++ program computes what the compiler computes", "statement": "For the prime 2^64-2^32+1, each of the twenty binary and three unary operators as computed by the generated C++ program on 64-bit words (with all intermediate sums, products and shifts taken modulo 2^64) yields, on field elements in [0,p), exactly the element in [0,p) that the compiler computes when it folds the same operation on constants; operations without a result for the compiler (division by a non-invertible element, `\\\\` and `%` by zero) have none in the program, and no others; truth values agree; the conversion to a machine index is exact for all elements representing an integer of 32 bits except -2^31, where the C code has no defined result; comparison of arrays tests all elements and nothing else.", "quantifier": "all operators, all pairs of field elements (2^128 pairs), all exponents and shift amounts, all arrays", "why_tests_cant": "2^128 operand pairs; errors in carries occur for a tiny fraction of operands near the ends of ranges.", "anchors": ["code_producers/src/c_elements/goldilocks/fr.hpp", "circom_algebra/src/modular_arithmetic.rs", "compiler/src/intermediate_representation/compute_bucket.rs:get_fr_op"]}
{"id": "C81", "title": "With --no_asm the C++ program computes what the compiler computes, for all seven large primes", "statement": "For each prime other than goldilocks, the element arithmetic written with --no_asm (elements that are a 32-bit signed number, plain limbs, or limbs in Montgomery form, with conversions between them on demand) agrees with the compiler's constant folding: if two elements, in any of their forms, stand for numbers x and y in [0,q) and the compiler has a result v for an operator on x and y, the program's function returns an element that stands for v, whatever its destination held before. The same holds for the unary operators, truth values, and the number printed or written to the witness file; an element stands for one number only; reading the digits of an integer z yields an element for z mod q. Where the compiler has no result, the program has none (division by a non-invertible element, `\\\\` and `%` by zero), except that a shift by an amount whose distance from 0 and from q is at least 2^64, which the compiler rejects, is 0 in the program.", "quantifier": "all operators, all elements in all forms (short, long, Montgomery, and short with cached Montgomery limbs), all previous contents of the destination, every modulus that is odd, has more than one limb and leaves a 2^-64 part of the top of the limbs free (all seven primes of the compiler do)", "why_tests_cant": "About 2^510 operand pairs per operator times sixteen combinations of forms; a carry that is dropped in the Montgomery product, or a threshold off by one in the shifts and the 32-bit fast paths, shows for a vanishing fraction of them.", "anchors": ["code_producers/src/c_elements/generic/fr.cpp", "code_producers/src/c_elements/c_code_generator.rs:generate_fr_cpp_file", "circom_algebra/src/modular_arithmetic.rs", "compiler/src/intermediate_representation/compute_bucket.rs:get_fr_op"]}
{"id": "C82", "title": "The witness file holds the witness; the C++ and JavaScript programs write the same bytes", "statement": "The file written by the C++ witness generator, read by a parser of the published .wtns layout (magic text, version 2, header section with element size, prime and count, data section, both with their byte lengths, nothing after), gives the prime and exactly the list of numbers the elements of the witness stand for, whatever form (short, long, Montgomery) each element has in memory; likewise for goldilocks and for the file built by calculateWTNSBin in JavaScript. For the same witness and each of the eight primes the two files are equal byte for byte. Numbers pass through the shared 32-bit words of the WebAssembly module unchanged in both directions.", "quantifier": "all witnesses of any length whose signals fit in the memory of a WebAssembly module, all forms of the elements, all primes of the compiler (and every modulus meeting the stated conditions)", "why_tests_cant": "Witness contents and lengths are unbounded; a wrong form bit or an offset that overlaps shows only for some lengths or representations.", "anchors": ["code_producers/src/c_elements/common/main.cpp:writeBinWitness", "code_producers/src/c_elements/common64/main.cpp:writeBinWitness", "code_producers/src/wasm_elements/common/witness_calculator.js:calculateWTNSBin", "compiler/src/circuit_design/build.rs:size_32_bit"]}
{"id": "C83", "title": "The JSON file of inputs: both programs read the same, and a file in the shape of the declarations sets every input signal", "statement": "For a file of inputs whose keys are identifiers, distinct within each object, and not `__proto__` at the top: where the C++ and the JavaScript witness program both accept it, they load the same values, reduced modulo the prime, under the same names. A file written in the shape of the declarations of the main component's inputs (arrays row by row, an object per bus, keys in any order), with values given as strings of decimal digits or as integers up to 2^53 in size and, for JavaScript, of one type within each elementary name, is accepted by both; the elementary names of the compiler's list get exactly the values of their signals in order, and after loading in C++ every input signal holds the residue of its number and the computation is started once.", "quantifier": "all files, nested to any depth; all bus definitions and declarations of inputs; all texts of values; all positive moduli; any starting contents of memory", "why_tests_cant": "Shapes of files are unbounded; the two programs flatten, qualify and convert in different code with different type checks, and differ only on particular shapes, key orders or magnitudes.", "anchors": ["code_producers/src/c_elements/common/main.cpp:qualify_input", "code_producers/src/c_elements/common/main.cpp:json2FrElements", "code_producers/src/c_elements/common/main.cpp:loadJson", "code_producers/src/wasm_elements/common/witness_calculator.js:qualify_input", "code_producers/src/wasm_elements/common/witness_calculator.js:normalize", "compiler/src/circuit_design/build.rs:main_input_list"]}
{"id": "C84", "title": "The arithmetic of the WebAssembly program computes the compiler's operators, and leaves all other values as they were", "statement": "For each of the eight primes: when the WebAssembly function for an operator is called on operands that stand for x and y, in any of their forms (small signed number, limbs, Montgomery limbs, or both), and the compiler's own arithmetic has a result v for them, the call leaves v at the address of the result; every other element in memory outside the two scratch elements, operands included, still stands for the number it stood for, although it may have been converted in place. Integer division and remainder by zero trap; division by zero and shifts by 2^64 or more, refused by the compiler, give 0. The truth value, the array index (with sign, in 32 bits) and the limbs that are shown are those of the number. (Fails for `x ** x` with both operands the same variable or signal: the base is converted back to normal form before it is used as Montgomery limbs, so 3 ** 3 is not 27.)", "quantifier": "for all operators, all canonical x and y, all forms of the operands, all memories and addresses (operands may coincide), all odd primes above 2^63 with fewer than 2^20 bits", "why_tests_cant": "The functions are 32-bit limb schemes of some hundred lines each (multiplication by columns, division by trial quotients, binary powers, shifts across words) with cases on four forms of each operand and conversions in place; the paths depend on carries that random operands do not reach, and a conversion that disturbs another operand is seen only when two operands are at the same address.", "anchors": ["code_producers/src/wasm_elements/bn128/fr-code.wat:9095-12214", "code_producers/src/wasm_elements/bn128/fr-code.wat:21-9094", "compiler/src/intermediate_representation/compute_bucket.rs:139-307", "circom_algebra/src/modular_arithmetic.rs"]}
{"id": "C85", "title": "The memory of the WebAssembly module holds what its functions read, and the JavaScript program loads the inputs and reads the witness through it correctly", "statement": "The places the compiler computes for the prime, the table of names, the counters, the witness list, the signals, the components, the tables of accesses, the messages and the constants follow each other without overlap below the stack of variables, and the module asks for enough memory. The data it begins with decode to the prime, the number 1 in signal 0, the residue of each constant, the table of names, the witness list, the tables of accesses and the messages. The halves of the hash the JavaScript program sends are those in the table. For a file that follows the declarations of the inputs, `_doCalculateWitness` starts the main component exactly once, when every input signal stands for the residue of its number, all else in the signals and components being as created; a wrong number of values is refused. `getRawPrime` and `getWitness` give the 32-bit words of the prime and of the numbers of the witness signals. (Fails: no input is ever marked as set, so a signal may be given twice under the names of a bus and of its field, and the computation starts with another input missing; a name that is no input is accepted with an empty array.)", "quantifier": "for all circuits (numbers of signals, inputs, components, tables, messages, constants), all primes as in C84 with an even number of 32-bit words, all creation and run functions that leave the tables alone, all input values and orders of names, names of ASCII characters with distinct non-zero hashes", "why_tests_cant": "Addresses are sums of a dozen sizes; an overlap shows only for circuits where the parts are non-empty and the neighbours are written in the wrong order, and a wrong flag or word of a constant only for certain values. Which inputs are missing when the count reaches zero depends on the order and naming in the file.", "anchors": ["code_producers/src/wasm_elements/wasm_code_generator.rs:7-23,249-278,457-529,676-788,890-1234,1302-1327", "code_producers/src/wasm_elements/mod.rs:326-418", "code_producers/src/wasm_elements/common/witness_calculator.js:131-187,369-381", "compiler/src/circuit_design/build.rs:205-230"]}
{"id": "C86", "title": "A program text has at most one syntax tree, the one of the documented precedences, and the short forms mean what they stand for", "statement": "A sequence of tokens has at most one syntax tree, as a file, definition, statement, declaration, assignment or expression. Expressions follow the table of operators: an expression written with parentheses only where the precedences ask for them reads back as itself, every expression that is read is of this kind, and infix operators of one level associate to the left. An `else` belongs to the nearest `if`. `x op= e` means `x = x op (e)`, `x++` means `x += 1`, `a --> b` means `b <-- a`, `for` means its `while`, `var x` means `var x = 0` unless `--no_init`. Two prefix operators in a row, a conditional as last part of another without parentheses and an unbraced `if` under `while` have no tree. A text given to `log` is cut into non-empty pieces of at most 230 bytes that put together give it. (Fails: the cut is at byte 230 whatever is there; the parser panics on a text with a longer character across it.)", "quantifier": "for all sequences of tokens of all lengths, all nestings of expressions and statements, all primes, with and without --no_init; for all texts of log", "why_tests_cant": "The number of sequences of tokens and nestings is infinite; an ambiguity or a wrong precedence shows only for certain combinations of adjacent operators or nested statements, and a wrong tree gives a valid program with other constraints.", "anchors": ["parser/src/lang.lalrpop:44-863", "program_structure/src/abstract_syntax_tree/ast_shortcuts.rs:18-185", "program_structure/src/abstract_syntax_tree/statement_builders.rs:54-76", "program_structure/src/abstract_syntax_tree/expression_builders.rs:46-90"]}
{"id": "C87", "title": "A text is cut into the longest tokens; words, names, numbers and signs are read as written; blanks and comments only separate", "statement": "The tokens of a program text are those of its one cut into blanks and spellings, each the longest at its place, a word of the language before a name. Hence tokens written with blanks between them are read back; a word that merely begins with a word of the language is a name; a sign between two names or numbers needs no blanks; blanks, brackets and comments between two texts do not change the tokens of either; numbers have their decimal or hexadecimal value. A text with no such cut is refused with an error. (Fails: `0x` without digits makes the compiler panic.)", "quantifier": "for all texts (sequences of Unicode characters), all sequences of tokens and all spellings of each", "why_tests_cant": "There are some eighty fixed tokens, many beginning with others, and infinitely many names and numbers; a wrong priority shows only for particular neighbours such as `a<--b` or `inputs`, and gives a different valid program.", "anchors": ["parser/src/lang.lalrpop:14-857", "parser/src/parser_logic.rs:9-116"]}
{"id": "C88", "title": "Every call of a function is linked to an instance made for the dimensions of its arguments", "statement": "When a program has been executed, its functions are replaced by instances, one for each list of dimensions of arguments they are called with. Afterwards each template and each instance has the code of its source; each expression carries its dimensions; each call of a function names an instance of that very function, whose parameters have the dimensions of the arguments, and carries the dimensions that instance returns, and these have room for every value it returns. Instances have different names, and none is made twice. The instance for a call is always found and the search for result dimensions ends. (Fails: calls in the condition of `?:`; `f(f(x))` returned by another function; results of two dimensions or of recursive functions may be given too little room; a function named like an instance.)", "quantifier": "for all lists of functions, all template instances, all call patterns and nestings", "why_tests_cant": "Which instances are made depends on the dimensions that reach each call through arbitrarily long chains of calls, and on the order in which they are met; a call linked to the wrong instance reads or writes outside its memory only for some argument sizes.", "anchors": ["compiler/src/hir/merger.rs:10-772", "compiler/src/hir/type_inference.rs:12-294", "compiler/src/hir/analysis_utilities.rs:17-168"]}
{"id": "C89", "title": "`--inspect` warns about exactly the signals that are in no constraint", "statement": "With `--inspect`, for every template instance that is not a custom gate, each signal of the template and each input or output of one of its components that is in no constraint of the template (with a coefficient that is not zero) and is not assigned to `_` is covered by a warning; the elements of one array share one warning, which says whether the array belongs to the template or to a component, how many of its elements are concerned, and names the first ones; there are no other warnings and none is repeated. The analysis always ends. (Fails: an instance whose name equals that of an earlier instance, which happens when they differ only in tags of fields of buses, is not looked at.)", "quantifier": "for all programs handed to the graph, all nestings of buses and arrays, all lists of underscored signals", "why_tests_cant": "Which signals are covered depends on names built from arbitrary nestings of components, buses and array indices, and on the numbers given to the signals of all subcomponents; a wrong range or a wrong split of a name shows only for particular shapes.", "anchors": ["dag/src/constraint_correctness_analysis.rs:13-173", "dag/src/lib.rs:236-242", "dag/src/lib.rs:418-422", "dag/src/lib.rs:468-479", "constraint_generation/src/execution_data/executed_template.rs:349-361"]}
{"id": "C90", "title": "Replacing constants does not change what functions and buses mean", "statement": "After the type analysis, the body of a function or bus in which variables that are only given a value at their declaration have been replaced by that value's expression returns, for all arguments, the same value as the written body, fails in the same cases, and logs, constrains and declares (with the same array lengths) the same; the rewriting does not panic on a body whose names are accepted; a body without reports declares its arrays with lengths that do not depend on the arguments. (Fails: a variable that hides a constant is replaced by the constant; an initial value is looked up among later declarations of its block; a length that goes through a variable of an inner block is not reported; a length that reads a name of the same declaration panics; calls that log are repeated.)", "quantifier": "for all bodies, arguments, and all meanings of the operators and of the called functions", "why_tests_cant": "The replacement depends on which names are visible, hidden and assigned anywhere in nested blocks; a wrong tag changes a value only for particular nestings and arguments.", "anchors": ["type_analysis/src/decorators/constants_handler.rs:15-571", "type_analysis/src/check_types.rs:148-156", "type_analysis/src/check_types.rs:168-176", "type_analysis/src/analyzers/symbol_analysis.rs:109-300", "program_structure/src/utils/environment.rs:147-223"]}
{"id": "C91", "title": "The structural checks on templates and buses match what executing them does", "statement": "A template is accepted by the check on declarations in loops exactly when none of its runs declares the same signal, component or bus twice. A custom template is accepted exactly when no run of it adds a constraint or declares a component, and the intermediate signals it can declare are exactly those warned of. A bus is accepted exactly when it declares only inner signals and buses and its execution ends; it then has exactly the fields collected from its text, in that order, each once; the check does not panic. (Fails: `_ <== e` in a custom template is rejected although it adds no constraint; tuples in a bus panic; a bus can have the same field twice.)", "quantifier": "for all statements as the parser builds them, all runs of their branches and loops", "why_tests_cant": "The checks look at the text, the claim is about every way through nested branches and loops; a missing case in one of the recursions shows only for a particular nesting.", "anchors": ["type_analysis/src/analyzers/custom_gate_analysis.rs:9-152", "type_analysis/src/analyzers/signal_declaration_analysis.rs:7-66", "type_analysis/src/analyzers/buses_free_of_invalid_statements.rs:9-164", "program_structure/src/program_library/bus_data.rs:118-164", "constraint_generation/src/execute.rs:861-951"]}
{"id": "C92", "title": "`log` prints the same line in both witness programs, and error messages name message and line", "statement": "For every program and every run, each executed `log` statement prints its arguments in order, texts as they are written and values in decimal, with one blank between them and a newline at the end; the C++ witness program and the JavaScript program around the WebAssembly module print the same bytes. After a failed assertion the text read from the module is the message (cut to 239 bytes), \" line: \" and the line number, and no memory outside of the buffer has changed. (Holds for visible ASCII texts of at most 230 bytes without quotes, percent signs and backslashes. Fails: a text that is only a newline ends the line in the JavaScript program alone; a percent sign is taken for a conversion by printf; the JavaScript program prints the bytes of UTF-8 as characters; longer texts are printed with a blank after every 230 bytes, and the parser panics if a character lies across that position.)", "quantifier": "for all programs of log statements, all values, all runs, all messages and lines", "why_tests_cant": "The text goes through the parser, a table shared by the whole program, two text formats, a 256-byte buffer in the memory of the module and a loop in JavaScript; tests print a few short ASCII texts.", "anchors": ["program_structure/src/abstract_syntax_tree/statement_builders.rs:57-78", "compiler/src/intermediate_representation/translate.rs:752-783", "compiler/src/intermediate_representation/log_bucket.rs:67-161", "code_producers/src/wasm_elements/wasm_code_generator.rs:1329-1599", "code_producers/src/wasm_elements/common/witness_calculator.js:44-103"]}
{"id": "C93", "title": "The inference of templates of components only adds what the assignments say, and never makes a program be rejected", "statement": "Before the type check every declaration of a component is marked with a template found in the text of the assignments to it. For every program: nothing but these marks changes; a component is marked with the template named by the last assignment to it in the text, and is unmarked if no assignment names one; every program accepted without the marks is accepted with them, with the same instances; and in an accepted program all templates assigned to a component, in every branch and every arm of a conditional expression, are its mark. (Holds for templates whose components, signals and variables have names of their own. Fails for a name declared in two branches: the first component gets the template of the second, and a correct program is rejected.)", "quantifier": "for all programs, templates, components and assignments", "why_tests_cant": "The pass works on the text, with one table for a whole template, while the checker walks blocks and calls; whether the two agree depends on the order of declarations, assignments and uses in nested blocks.", "anchors": ["type_analysis/src/decorators/component_type_inference.rs:12-108", "type_analysis/src/check_types.rs:123-132", "type_analysis/src/analyzers/type_check.rs:220-225", "type_analysis/src/analyzers/type_check.rs:317-335"]}
{"id": "C94", "title": "Every symbol is marked with what it denotes, and code generation drops component assignments only", "statement": "Before the type check every occurrence of a symbol, and every assignment, is marked as denoting a variable, a signal, a component or a tag. In every template instantiated by an accepted program, the marking pass ends without panic or report; a name is marked as its declaration says; a port of a component is marked as a signal; and the code handed to the witness generator lacks only component assignments and assignments to `_`: every assignment to a variable, signal or port is still there. (Holds for ports if a call is assigned to the component before them in the text, for templates whose names are their own, without `parallel` before `?:`. Fails for a component assigned by `?:` or assigned later in the text: its ports are taken for components, and `c.in <== 5` is dropped from the witness program while its constraint stays. `parallel` before `?:` or before a number, and a function call assigned to a component, make the compiler panic.)", "quantifier": "for all programs accepted by the type checker, all their instantiated templates and all occurrences of symbols in them", "why_tests_cant": "The marks are made in one walk through the text with flat tables, and read by four later phases; an assignment missing in the witness program is seen only if a test has the order of text, branches and choice of template that loses it.", "anchors": ["type_analysis/src/decorators/type_reduction.rs:13-315", "type_analysis/src/check_types.rs:123-132", "compiler/src/hir/component_preprocess.rs:4-132", "program_structure/src/program_library/program_archive.rs:87-90", "program_structure/src/abstract_syntax_tree/ast.rs:401-440"]}
{"id": "C95", "title": "The JSON file of constraints is well-formed and says the same as the R1CS file", "statement": "The file written with `--json` is a JSON text for every program, also for one without constraints. A reader of this text finds an object whose entry `constraints` lists the constraints of the R1CS file of the same run, in the same order, each as three objects from wire number to coefficient, with the same wires and coefficients and the wires ascending as numbers. The text does not depend on the iteration order of hash maps. The file of `--simplification_substitution` is a JSON text as well, from which a reader finds exactly the logged signals with their linear combinations.", "quantifier": "for all programs, all levels of simplification, all lists of constraints and of substitutions (also empty ones), all iteration orders of the maps", "why_tests_cant": "The two files are written by different code from hash maps; a misplaced comma at an empty list, an order by text instead of by number or a wrong renumbering appears only for some programs, and no test compares both files for all of them.", "anchors": ["constraint_writers/src/json_writer.rs:1-98", "constraint_list/src/json_porting.rs:8-48", "dag/src/json_porting.rs:11-46", "constraint_list/src/constraint_simplification.rs:9-17", "constraint_list/src/r1cs_porting.rs:23-33"]}
{"id": "C96", "title": "The program archive holds every definition once and numbers its nodes without gaps", "statement": "The archive is built exactly when no two definitions of the program, of whatever kind and in whatever files, have the same name; otherwise each definition whose name was defined before it is reported, with its file and place. In an archive every template, function and bus is found under its name in the table of its kind and in no other, with its file, parameters, flags and body; the tables of inputs and outputs of a template give the declarations of its body with type, number of dimensions and tags, the lists of them keep the order of the text; likewise the fields of a bus. The nodes of all bodies and of the call of `component main` carry the numbers from 0 to `id_max` - 1, each exactly once, and the file in which they stand, so that records kept per node in vectors of length `id_max` are never out of range and never shared.", "quantifier": "for all lists of files with all lists of definitions (also several with one name, and files without definitions), all syntax trees and all main components", "why_tests_cant": "A node skipped by the numbering, numbered twice or left without its file shows up only as a wrong record or a report at the wrong place of some analysis of a program with exactly this construct; a test sees single programs.", "anchors": ["program_structure/src/program_library/program_archive.rs:29-78", "program_structure/src/program_library/program_merger.rs:31-127", "program_structure/src/program_library/template_data.rs:28-61", "program_structure/src/program_library/template_data.rs:160-238", "program_structure/src/program_library/bus_data.rs:118-164", "program_structure/src/abstract_syntax_tree/statement_impl.rs:206-366", "program_structure/src/abstract_syntax_tree/expression_impl.rs:240-369"]}
{"id": "C97", "title": "The command line decides which files a run writes and whether it ends well", "statement": "A run of the compiler with an accepted command line uses the level of simplification and the prime that the options name (O1 and bn128 if they name none, the lowest level if they name several); unknown primes, levels of checks and numbers of rounds are refused, and nothing else is. If the options, the parser or the type analysis fail, no file is touched. A run that ends well leaves exactly the files that the options ask for, next to the files from before that are not below the folders it makes anew. No file is written twice, the program is not destroyed. If the file system does what it is told, the run ends well exactly when all stages that the options ask for succeed.", "quantifier": "for all command lines, all names and places of the program, all outcomes of the stages and of the single file operations, all contents of the file system", "why_tests_cant": "There are more than 2^14 combinations of the options, and the collisions of names depend on the name and the place of the program; a test of the compiler runs few of them in an empty folder.", "anchors": ["circom/src/main.rs:23-70", "circom/src/input_user.rs:53-130", "circom/src/input_user.rs:263-395", "circom/src/execution_user.rs:27-57", "circom/src/compilation_user.rs:31-139", "compiler/src/compiler_interface.rs:28-64", "compiler/src/circuit_design/circuit.rs:596-619"]}
{"id": "C98", "title": "The table of inputs has room for all inputs of a program and all its readers find them", "statement": "Whatever the number of inputs of the main component, the table in which the generated witness calculators look up inputs by the hash of their names has at least as many places as there are inputs, its size is a power of two and at most twice the number of inputs (or 256); the compiler builds it, and the C++ calculator, the WebAssembly calculator and the converter of inputs for goldilocks find every input in it.", "quantifier": "for all numbers and names of inputs with different hashes, every correctly rounded binary logarithm in single precision", "why_tests_cant": "The size is computed with floating-point numbers, which fail first at millions of inputs; the converter has a fixed size that suffices for all small programs.", "anchors": ["code_producers/src/c_elements/mod.rs:167-169", "code_producers/src/wasm_elements/mod.rs:211-214", "code_producers/src/c_elements/c_code_generator.rs:575-587", "code_producers/src/c_elements/common64/json2bin64.cpp:97-143"]}
{"id": "C99", "title": "The symbol file can be read back", "statement": "A reader that splits the symbol file at line ends and each line at commas finds exactly one line for each signal of the circuit, in the documented order: its number, its position in the witness (-1 exactly if the signal was eliminated), the number of its template instance and its qualified name, with which it can be looked up. Different tables have different texts.", "quantifier": "for all programs (components, arrays, buses), with and without simplification, for all orders of simplification", "why_tests_cant": "A separator in a name or a number printed in another way is confused only for some names; universal over programs.", "anchors": ["constraint_writers/src/sym_writer.rs:4-36", "constraint_list/src/sym_porting.rs:5-37", "dag/src/sym_porting.rs:6-30"]}
{"id": "C100", "title": "The field is the one the option names", "statement": "For every accepted value of --prime the number the compiler computes with is an odd prime, different values stand for different primes, and the constants in the data of the generated programs belong to that prime: in the assembly file the prime, its half, the square and cube of 2^256, the mask of its highest word and the negative inverse modulo 2^64; in the memory of the instantiated WebAssembly module the length of the prime, the prime, the powers of the Montgomery radix, one, and the half.", "quantifier": "for all accepted command lines, and for all modules made for them", "why_tests_cant": "That a number of 256 bits is prime is not a matter of samples; a wrong digit in a constant of one prime shows only in programs compiled for that prime, on the paths that use the constant.", "anchors": ["program_structure/src/utils/constants.rs:3-40", "circom/src/input_user.rs:53-117", "code_producers/src/c_elements/bn128/fr.asm:8780-8793", "code_producers/src/c_elements/c_code_generator.rs:1173-1200", "code_producers/src/wasm_elements/bn128/fr-data.wat:1-15", "code_producers/src/wasm_elements/wasm_code_generator.rs:1730-1747", "compiler/src/circuit_design/build.rs:205-222"]}
{"id": "C101", "title": "Pragmas decide which compilers take a file", "statement": "The compiler goes on with a program exactly if in each of its files all pragmas are understood and none is there twice, the version asked for has the major number of the compiler and is not later than it, and, with the pragma for custom templates, the version asked for (that of the compiler if there is none) is at least 2.0.6; otherwise it ends with a report. It warns once for each file without a version. A file that a compiler takes is taken in the same way by all later ones with the same major number.", "quantifier": "for all lists of pragmas in all files, for all versions of the compiler", "why_tests_cant": "The comparison has three numbers on each side; a wrong order shows only for some combinations, and for versions of the compiler that do not exist yet.", "anchors": ["parser/src/lib.rs:76-113", "parser/src/lib.rs:189-273", "parser/src/lang.lalrpop:44-64", "parser/src/lang.lalrpop:854-864", "program_structure/src/abstract_syntax_tree/ast.rs:96-138", "parser/src/parser_logic.rs:87-123"]}
{"id": "C102", "title": "The public inputs are the listed ones", "statement": "If a program is accepted, the public inputs of the circuit are the signals of exactly those inputs of the main component that its list names, in the order of declaration; the others are private, and no other instance has public inputs. The order of the list and repetitions do not matter. A program is refused exactly if a listed name is no input of the main template, and the names reported are those. Each listed name is a public input.", "quantifier": "for all templates (arrays, buses, declarations under conditions), all lists, all further instances", "why_tests_cant": "Which inputs are public must hold for every template and list; that a name is dropped shows only with declarations in a branch that is not taken.", "anchors": ["type_analysis/src/analyzers/symbol_analysis.rs:70-109", "program_structure/src/program_library/template_data.rs:160-238", "constraint_generation/src/execute.rs:165-208", "constraint_generation/src/execute.rs:3379-3432", "constraint_generation/src/execution_data/executed_template.rs:91-129", "constraint_generation/src/execution_data/executed_template.rs:270-311"]}
{"id": "C103", "title": "What the type analysis accepts has passed every analysis and holds exactly what is reached", "statement": "If the type analysis accepts a program, then every definition of it, reached from the main component or not, has passed the structural analyses of its kind, and reduction and constant handling have found nothing to report in it; the archive that goes on holds the definitions reached, each as inference, reduction and constant handling have made it, and no other, and its sets of names are the names of its tables; every template and bus in it has passed the analysis of unknowns, every custom template the one of custom templates, whose warnings are given. The analysis does not end at an assertion of the archive, and a fault in a definition that is not reached is an error.", "quantifier": "for all archives with right sets of names, all orders in which their tables are gone through, all results of the single analyses", "why_tests_cant": "That no analysis is left out, or run on the wrong archive, must hold for every definition of every program; a test shows it for the definitions it has.", "anchors": ["type_analysis/src/check_types.rs:6-202", "program_structure/src/program_library/program_archive.rs:87-160", "type_analysis/src/analyzers/custom_gate_analysis.rs:147-151"]}
{"id": "C104", "title": "The main component gets no tags from outside", "statement": "A program is refused for tags of its main component exactly if an input of the main template has a tag, or is a bus with a tagged field, at any depth of buses in buses. The answer does not depend on the order of the tables, and the search ends for every program.", "quantifier": "for all main templates, all definitions of buses, all orders of the tables", "why_tests_cant": "The depth of buses is not bounded; a search that stops early misses tags only in some orders of the fields.", "anchors": ["type_analysis/src/analyzers/type_check.rs:109-164", "type_analysis/src/analyzers/type_check.rs:1418-1426", "program_structure/src/program_library/bus_data.rs:118-165"]}
{"id": "C105", "title": "A program has one main component", "statement": "A program goes on after parsing exactly if one of its files, and no other, has a main component, no pragma for custom templates is missing along the includes, and the archive and the rewriting do well. The archive is made of that main component, with the number and the pragma of its file, and of the definitions of all files in order; warnings are handed on. Without a main component, or with several, the program is refused; in the latter case the report shows the first as the primary place and each other one as a further place.", "quantifier": "for all lists of files, all main components in them, all warnings, all results of archive and rewriting", "why_tests_cant": "The number and the order of the files are not bounded, and which file has the main component decides number and pragma taken.", "anchors": ["parser/src/lib.rs:82-163", "parser/src/lib.rs:166-179", "program_structure/src/abstract_syntax_tree/ast.rs:511-529"]}
