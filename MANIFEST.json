{
 "claims": [
  {
   "property": "C01",
   "status": "proved",
   "theorems": [
    "Verif.Props.ModArith.C01_add",
    "Verif.Props.ModArith.C01_sub",
    "Verif.Props.ModArith.C01_mul",
    "Verif.Props.ModArith.C01_neg"
   ],
   "note": "all integers, every p>0"
  },
  {
   "property": "C02",
   "status": "proved",
   "theorems": [
    "Verif.Props.ModArith.C02_div",
    "Verif.Props.ModArith.C02_div_prime"
   ],
   "note": "units characterise success; prime case separately"
  },
  {
   "property": "C03",
   "status": "proved",
   "theorems": [
    "Verif.Props.ModArith.C03_idiv_mod",
    "Verif.Props.ModArith.C03_idiv_zero"
   ],
   "note": "quotient/remainder law"
  },
  {
   "property": "C04",
   "status": "partial",
   "theorems": [
    "Verif.Props.ModArith.C04_mod_zero_violated",
    "Verif.Props.ModArith.C04_mod_nonzero_partial"
   ],
   "note": "full claim false: remainder by zero aborts (negation proved for every operand); nonzero divisors never abort"
  },
  {
   "property": "C05",
   "status": "proved",
   "theorems": [
    "Verif.Props.ModArith.C05_pow",
    "Verif.Props.ModArith.C05_pow_abort"
   ],
   "note": "non-negative exponents; abort exactly on negative ones"
  },
  {
   "property": "C06",
   "status": "proved",
   "theorems": [
    "Verif.Props.ModArith.C06_signed_exists_unique",
    "Verif.Props.ModArith.C06_comparisons",
    "Verif.Props.ModArith.C06_periodic"
   ],
   "note": "spec through the unique signed representative"
  },
  {
   "property": "C07",
   "status": "proved",
   "theorems": [
    "Verif.Props.ModArith.C07_asBool",
    "Verif.Props.ModArith.C07_boolean_tables"
   ],
   "note": "truth tables"
  },
  {
   "property": "C08",
   "status": "proved",
   "theorems": [
    "Verif.Props.ModArith.C08_numBits_exists",
    "Verif.Props.ModArith.C08_shiftL_small",
    "Verif.Props.ModArith.C08_shiftR_small",
    "Verif.Props.ModArith.C08_dual",
    "Verif.Props.ModArith.C08_error_iff"
   ],
   "note": "termination is part of the definition of shift"
  },
  {
   "property": "C09",
   "status": "proved",
   "theorems": [
    "Verif.Props.ModArith.C09_bitwise",
    "Verif.Props.ModArith.C09_complement",
    "Verif.Props.ModArith.C09_complement_involutive",
    "Verif.Props.ModArith.C09_complement_noncanonical"
   ],
   "note": "bit-level spec by testBit"
  },
  {
   "property": "C10",
   "status": "proved",
   "theorems": [
    "Verif.Props.ModArith.C10_multi_inv",
    "Verif.Props.ModArith.C10_multi_inv_abort"
   ],
   "note": "any list length; abort characterised"
  },
  {
   "property": "C100",
   "status": "proved",
   "theorems": [
    "Verif.Props.Primes.C100_prime",
    "Verif.Props.Primes.C100_names",
    "Verif.Props.Primes.C100_asm",
    "Verif.Props.Primes.C100_setup",
    "Verif.Props.Primes.C100_wasm"
   ],
   "note": "Primality by Pratt certificates; constants of fr.asm and fr-data.wat for each prime, the latter as they stand in the memory of the instantiated module. The code of fr.asm is not modelled."
  },
  {
   "property": "C101",
   "status": "partial",
   "theorems": [
    "Verif.Props.Pragma.C101_file_partial",
    "Verif.Props.Pragma.C101_program_partial",
    "Verif.Props.Pragma.C101_later",
    "Verif.Props.Pragma.C101_panic_violated"
   ],
   "note": "For versions whose numbers are machine words; with a larger number the compiler panics (C101_panic_violated). Failures of other parts of the parser are left out."
  },
  {
   "property": "C102",
   "status": "partial",
   "theorems": [
    "Verif.Props.Public.C102_signals",
    "Verif.Props.Public.C102_list",
    "Verif.Props.Public.C102_check",
    "Verif.Props.Public.C102_listed_partial",
    "Verif.Props.Public.C102_listed_violated"
   ],
   "note": "That each listed name is a public input holds if inputs are declared outside of if statements; C102_listed_violated shows it fails otherwise."
  },
  {
   "property": "C103",
   "status": "proved",
   "theorems": [
    "Verif.Props.Stages.C103_passed",
    "Verif.Props.Stages.C103_decorated",
    "Verif.Props.Stages.C103_kept",
    "Verif.Props.Stages.C103_semantic",
    "Verif.Props.Stages.C103_total",
    "Verif.Props.Stages.C103_unreached"
   ],
   "note": "The single analyses are parameters of the model. Keyed (sets of names are the names of the tables) is what ProgramArchive::new gives; Honest: custom_gate_analysis fails with errors only."
  },
  {
   "property": "C104",
   "status": "partial",
   "theorems": [
    "Verif.Props.MainTags.C104_tags_partial",
    "Verif.Props.MainTags.C104_order",
    "Verif.Props.MainTags.C104_ends_partial",
    "Verif.Props.MainTags.C104_recursive_violated"
   ],
   "note": "Proved for searches that end, and that they end if no bus is a part of itself; the code violates the rest (C104_recursive_violated)."
  },
  {
   "property": "C105",
   "status": "proved",
   "theorems": [
    "Verif.Props.RunParser.C105_accept",
    "Verif.Props.RunParser.C105_none",
    "Verif.Props.RunParser.C105_several"
   ],
   "note": "The chains of includes, the archive and the rewriting are parameters of the model (C50, C96, C75)."
  },
  {
   "property": "C11",
   "status": "proved",
   "theorems": [
    "Verif.Props.Algebra.C11_add",
    "Verif.Props.Algebra.C11_mul",
    "Verif.Props.Algebra.C11_sub",
    "Verif.Props.Algebra.C11_neg",
    "Verif.Props.Algebra.C11_div",
    "Verif.Props.Algebra.C11_pow",
    "Verif.Props.Algebra.C11_eq",
    "Verif.Props.Algebra.C11_tree"
   ],
   "note": "Every non-NonQuadratic result has the value of the field operation on operand values, for every modulus where division is by a unit; C11_tree lifts this to whole expression trees."
  },
  {
   "property": "C12",
   "status": "proved",
   "theorems": [
    "Verif.Props.Algebra.C12_add_boundary",
    "Verif.Props.Algebra.C12_mul_boundary",
    "Verif.Props.Algebra.C12_sub_boundary",
    "Verif.Props.Algebra.C12_numbers_fold"
   ],
   "note": "Rejection iff characterised by operand shapes."
  },
  {
   "property": "C13",
   "status": "proved",
   "theorems": [
    "Verif.Props.Algebra.C13_equality_constraint"
   ],
   "note": "Generated constraint holds iff both sides have the same value; exists unless the difference is non-quadratic."
  },
  {
   "property": "C14",
   "status": "proved",
   "theorems": [
    "Verif.Props.Algebra.C14_value",
    "Verif.Props.Algebra.C14_constraint",
    "Verif.Props.Algebra.C14_substitution",
    "Verif.Props.Algebra.C14_expression",
    "Verif.Props.Algebra.C14_removed",
    "Verif.Props.Algebra.C14_new",
    "Verif.Props.Algebra.C14_into_constraint"
   ],
   "note": "Meaning preserved under the substitution equation; the signal disappears."
  },
  {
   "property": "C15",
   "status": "proved",
   "theorems": [
    "Verif.Props.Algebra.C15_fix",
    "Verif.Props.Algebra.C15_empty"
   ],
   "note": "Same solutions, no zero coefficients, empty only if trivially satisfied."
  },
  {
   "property": "C16",
   "status": "proved",
   "theorems": [
    "Verif.Props.Algebra.C16_clear_signal",
    "Verif.Props.Algebra.C16_clear_signal_nn"
   ],
   "note": "Normalised and non-normalised isolation both equivalent to the constraint."
  },
  {
   "property": "C17",
   "status": "proved",
   "theorems": [
    "Verif.Props.Algebra.C17_offset",
    "Verif.Props.Algebra.C17_correspondence",
    "Verif.Props.Algebra.C17_unknown_signal",
    "Verif.Props.Algebra.C17_witness"
   ],
   "note": "Offsets, correspondence maps and witness vectors; the abort path for unmapped signals is characterised."
  },
  {
   "property": "C18",
   "status": "proved",
   "theorems": [
    "Verif.Props.Algebra.C18_equality",
    "Verif.Props.Algebra.C18_constant_equality",
    "Verif.Props.Algebra.C18_exclusive",
    "Verif.Props.Algebra.C18_equality_order"
   ],
   "note": "Equality and constant-equality classification; independence of hash order."
  },
  {
   "property": "C19",
   "status": "proved",
   "theorems": [
    "Verif.Props.Linear.C19_equivalence"
   ],
   "note": "Equivalence for every cleaned linear system, protected set containing the constant, hash order and assignment over every prime field."
  },
  {
   "property": "C20",
   "status": "proved",
   "theorems": [
    "Verif.Props.Linear.C20_equivalence",
    "Verif.Props.Linear.C20_entry_point"
   ],
   "note": "Same for the occurrence-count heuristic under every hash iteration order, and for the entry point."
  },
  {
   "property": "C21",
   "status": "proved",
   "theorems": [
    "Verif.Props.Linear.C21_terminates",
    "Verif.Props.Linear.C21_no_abort"
   ],
   "note": "A bound on iterations exists after which the result is fixed and no abort occurred."
  },
  {
   "property": "C22",
   "status": "proved",
   "theorems": [
    "Verif.Props.Linear.C22_eliminated"
   ],
   "note": "Removed = substituted signals, distinct, unprotected, absent from right-hand sides and returned constraints; no new signals."
  },
  {
   "property": "C23",
   "status": "proved",
   "theorems": [
    "Verif.Props.Clusters.C23_partition",
    "Verif.Props.Clusters.C23_same_cluster"
   ],
   "note": "For every schedule of hash-set iteration; signals below num_vars (otherwise the code aborts, shown by an example)."
  },
  {
   "property": "C24",
   "status": "proved",
   "theorems": [
    "Verif.Props.Simplification.C24_merge",
    "Verif.Props.Simplification.C24_deterministic"
   ],
   "note": "Equivalence, representatives, protected links; map independent of all orders."
  },
  {
   "property": "C25",
   "status": "partial",
   "theorems": [
    "Verif.Props.Simplification.C25_constants_partial",
    "Verif.Props.Simplification.C25_violated"
   ],
   "note": "Full equivalence is false: contradictory constants on one signal are dropped (whole-pipeline witness). Proved: completeness always, converse when the constants have a solution."
  },
  {
   "property": "C26",
   "status": "proved",
   "theorems": [
    "Verif.Props.Simplification.C26_equalities",
    "Verif.Props.Simplification.C26_linear"
   ],
   "note": "All arrival and leave orders."
  },
  {
   "property": "C27",
   "status": "proved",
   "theorems": [
    "Verif.Props.Simplification.C27_complete"
   ],
   "note": "Also totality."
  },
  {
   "property": "C28",
   "status": "partial",
   "theorems": [
    "Verif.Props.Simplification.C28_sound_partial",
    "Verif.Props.Simplification.C28_satisfiable_partial",
    "Verif.Props.Simplification.C28_violated"
   ],
   "note": "Proved when equalities and constants have a common solution; false otherwise (C28_violated)."
  },
  {
   "property": "C29",
   "status": "proved",
   "theorems": [
    "Verif.Props.Simplification.C29_renumbering",
    "Verif.Props.Simplification.C29_pipeline"
   ],
   "note": "Also exact private input count."
  },
  {
   "property": "C30",
   "status": "proved",
   "theorems": [
    "Verif.Props.Simplification.C30_mapped"
   ],
   "note": ""
  },
  {
   "property": "C31",
   "status": "proved",
   "theorems": [
    "Verif.Props.Export.C31_witness",
    "Verif.Props.Export.C31_symbols",
    "Verif.Props.Export.C31_symbols_program_partial"
   ],
   "note": "Witness list for every simplifier input and hash order; symbol lines for every encoding and renumbering. The additional program-level theorem (names and numbers of the lines) assumes distinct names."
  },
  {
   "property": "C32",
   "status": "proved",
   "theorems": [
    "Verif.Props.Storage.C32_storage"
   ],
   "note": "Any sequence of add/replace/read calls on the constraint storage behaves like the plain list of constraints."
  },
  {
   "property": "C33",
   "status": "proved",
   "theorems": [
    "Verif.Props.Storage.C33_interning",
    "Verif.Props.Storage.C33_encoding"
   ],
   "note": "Constant interning is injective and stable; the coded constraint decodes to the original one."
  },
  {
   "property": "C34",
   "status": "partial",
   "theorems": [
    "Verif.Props.Dag.C34_numbering_partial",
    "Verif.Props.Dag.C34_contiguous_partial",
    "Verif.Props.Dag.C34_violated"
   ],
   "note": "Proved for programs whose templates declare no signal name twice; circom accepts such declarations in different blocks, and then the claim fails or is not covered (C34_violated)."
  },
  {
   "property": "C35",
   "status": "partial",
   "theorems": [
    "Verif.Props.Dag.C35_flatten_partial",
    "Verif.Props.Dag.C35_section_partial",
    "Verif.Props.Dag.C35_meaning_partial"
   ],
   "note": "Proved for programs whose templates declare no signal name twice; circom accepts such declarations in different blocks, and then the claim fails or is not covered (C34_violated)."
  },
  {
   "property": "C36",
   "status": "partial",
   "theorems": [
    "Verif.Props.Dag.C36_witness_partial",
    "Verif.Props.Dag.C34_violated"
   ],
   "note": "Proved for programs whose templates declare no signal name twice; circom accepts such declarations in different blocks, and then the claim fails or is not covered (C34_violated)."
  },
  {
   "property": "C37",
   "status": "proved",
   "theorems": [
    "Verif.Props.R1cs.C37_round_trip"
   ],
   "note": "For every file whose values fit the format widths; names are byte strings without zero bytes."
  },
  {
   "property": "C38",
   "status": "proved",
   "theorems": [
    "Verif.Props.R1cs.C38_sections",
    "Verif.Props.R1cs.C38_format"
   ],
   "note": "Exact byte layout of the file, including every section length."
  },
  {
   "property": "C39",
   "status": "partial",
   "theorems": [
    "Verif.Props.R1cs.C39_ascending_partial",
    "Verif.Props.R1cs.C39_violated"
   ],
   "note": "False in general (little-endian byte order puts wire 256 before wire 1); proved for wires below 256."
  },
  {
   "property": "C40",
   "status": "proved",
   "theorems": [
    "Verif.Props.Memory.C40_position",
    "Verif.Props.Memory.C40_injective",
    "Verif.Props.Memory.C40_inverse",
    "Verif.Props.Memory.C40_refused",
    "Verif.Props.Memory.C40_mutable"
   ],
   "note": "All shapes (any number of dimensions, zero sizes included). usize is Nat: a product of dimensions that wraps is not modelled."
  },
  {
   "property": "C41",
   "status": "proved",
   "theorems": [
    "Verif.Props.Memory.C41_read_back",
    "Verif.Props.Memory.C41_frame",
    "Verif.Props.Memory.C41_strict_refused",
    "Verif.Props.Memory.C41_fewer_dimensions_accepted"
   ],
   "note": "Exactly matching shapes, both modes. C41_fewer_dimensions_accepted records that the check also accepts values of fewer dimensions."
  },
  {
   "property": "C42",
   "status": "partial",
   "theorems": [
    "Verif.Props.Memory.C42_flat_partial",
    "Verif.Props.Memory.C42_violated",
    "Verif.Props.Memory.C42_index_violated"
   ],
   "note": "The property fails for index = number of cells for every array (off-by-one guard): the access aborts. Proved for all other indices."
  },
  {
   "property": "C43",
   "status": "partial",
   "theorems": [
    "Verif.Props.Exec.C43_assigned_once_partial",
    "Verif.Props.Exec.C43_assigned_once_loop_free",
    "Verif.Props.Exec.C43_violated"
   ],
   "note": "Full statement fails for bodies with loops inside branches on unknown conditions (C43_violated: double assignment accepted and recorded as definite). Proved for every loop-free body, and for bodies with loops as long as the stack of pending conditions is what the branches made it."
  },
  {
   "property": "C44",
   "status": "partial",
   "theorems": [
    "Verif.Props.Exec.C44_balanced_partial",
    "Verif.Props.Exec.C44_loop_effect",
    "Verif.Props.Exec.C44_violated",
    "Verif.Props.Exec.C44_abort",
    "Verif.Props.Exec.C44_false_error"
   ],
   "note": "Full statement fails for while loops. Proved for loop-free statements; exact net effect of a loop with loop-free body proved; concrete abort and concrete false error report proved."
  },
  {
   "property": "C45",
   "status": "partial",
   "theorems": [
    "Verif.Props.Exec.C45_known_values_partial",
    "Verif.Props.Exec.C45_known_values_flat_loops",
    "Verif.Props.Exec.C45_return_partial",
    "Verif.Props.Exec.C45_violated"
   ],
   "note": "Full statement fails for unknown loops that two symbolic passes do not settle. Proved when every unknown loop met is settled by its two passes, in particular (no hypothesis on the run) when loop bodies have no nested branches or loops."
  },
  {
   "property": "C46",
   "status": "proved",
   "theorems": [
    "Verif.Props.Analysis.C46_folded_iff",
    "Verif.Props.Analysis.C46_order_irrelevant",
    "Verif.Props.Analysis.C46_never_again",
    "Verif.Props.Analysis.C46_total",
    "Verif.Props.Analysis.C46_reached_iff"
   ],
   "note": "All visit histories; also which expressions count as reached."
  },
  {
   "property": "C47",
   "status": "partial",
   "theorems": [
    "Verif.Props.Preprocess.C47_result",
    "Verif.Props.Preprocess.C47_every_text",
    "Verif.Props.Preprocess.C47_same_length",
    "Verif.Props.Preprocess.C47_same_position",
    "Verif.Props.Preprocess.C47_unique",
    "Verif.Props.Preprocess.C47_location_partial",
    "Verif.Props.Preprocess.C47_location_violated",
    "Verif.Props.Preprocess.C47_strings_violated"
   ],
   "note": "The text part is proved for all strings. Two parts of the statement do not hold for the code and are refuted by concrete texts: the reported location counts characters instead of bytes (C47_location_partial: right if no multi-byte character precedes), and // or /* inside a string literal is treated as a comment."
  },
  {
   "property": "C48",
   "status": "proved",
   "theorems": [
    "Verif.Props.Returns.C48_exact",
    "Verif.Props.Returns.C48_returns",
    "Verif.Props.Returns.C48_symbolic"
   ],
   "note": "Bodies abstracted to return, if, while, block and other statements; also: the symbolic executor's function_result.unwrap() is safe."
  },
  {
   "property": "C49",
   "status": "partial",
   "theorems": [
    "Verif.Props.Include.C49_each_once",
    "Verif.Props.Include.C49_each_file_once_partial",
    "Verif.Props.Include.C49_stops",
    "Verif.Props.Include.C49_succeeds_iff",
    "Verif.Props.Include.C49_each_file_once_violated"
   ],
   "note": "Proved at the level of paths; for files it holds unless the main file is given by a non-canonical path and is itself included, in which case it is taken twice (C49_each_file_once_violated)."
  },
  {
   "property": "C50",
   "status": "proved",
   "theorems": [
    "Verif.Props.Include.C50_exact"
   ],
   "note": "Includes termination of the check. The main file is supposed to be found at the path given rather than through a library directory."
  },
  {
   "property": "C51",
   "status": "partial",
   "theorems": [
    "Verif.Props.HashMap.C51_builds",
    "Verif.Props.HashMap.C51_found",
    "Verif.Props.HashMap.C51_found_wasm_partial",
    "Verif.Props.HashMap.C51_absent_partial",
    "Verif.Props.HashMap.C51_found_wasm_violated",
    "Verif.Props.HashMap.C51_absent_violated"
   ],
   "note": "For every hash function: construction ends iff the table is large enough; the C++ lookup finds every input; the WebAssembly lookup finds every input if no name has hash zero. Counterexamples with the real hash for a name of hash zero: WebAssembly does not find another input, C++ accepts an unknown name."
  },
  {
   "property": "C52",
   "status": "proved",
   "theorems": [
    "Verif.Props.Scope.C52_block",
    "Verif.Props.Scope.C52_visible",
    "Verif.Props.Scope.C52_goes_through"
   ],
   "note": "All histories of blocks, declarations and assignments on the environment model shared with the executor."
  },
  {
   "property": "C53",
   "status": "proved",
   "theorems": [
    "Verif.Props.Tags.C53_kept",
    "Verif.Props.Tags.C53_order",
    "Verif.Props.Tags.C53_bus_kept",
    "Verif.Props.Tags.C53_inline",
    "Verif.Props.Tags.C53_read_partial",
    "Verif.Props.Tags.C53_read_violated",
    "Verif.Props.Tags.C53_bus_total_partial",
    "Verif.Props.Tags.C53_bus_total_violated"
   ],
   "note": "C53_kept: after any history of assignments an undeclared tag survives iff every assigned value carried it with the same value, and declared tags are never lost. C53_order: permuted histories give the same tags and reads. C53_bus_kept and C53_inline: the same for fields of buses and for arrays written in line. Beyond the statement: which tags a read carries holds if no element is assigned twice (C53_read_partial); with both branches of an unknown condition assigning one element the count is wrong (C53_read_violated) and for buses underflows (C53_bus_total_violated)."
  },
  {
   "property": "C54",
   "status": "partial",
   "theorems": [
    "Verif.Props.Slots.C54_value",
    "Verif.Props.Slots.C54_addresses",
    "Verif.Props.Slots.C54_program_partial",
    "Verif.Props.Slots.C54_notify_violated",
    "Verif.Props.Slots.C54_source_size_violated"
   ],
   "note": "C54_value, C54_addresses: for all trees the code generated with the computed numbers yields the value of the tree, with no access beyond the computed size, whatever the temporaries hold before. C54_program_partial: whole bodies with branches, loops, calls, stores, for stores whose late-evaluated text names no temporaries. C54_notify_violated: in parallel templates the index of a set output is evaluated again after the source has overwritten the temporaries. C54_source_size_violated: the component index used for the size of a source is never numbered, so its temporaries coincide."
  },
  {
   "property": "C55",
   "status": "partial",
   "theorems": [
    "Verif.Props.Export.C55_plain_partial",
    "Verif.Props.Export.C55_simplified_partial",
    "Verif.Props.Export.C55_violated"
   ],
   "note": "The bound 1+outputs+inputs <= wires holds without simplification and is false with it (C55_violated: an unused private input loses its wire but stays announced). Programs with two equally named signals in one template excluded."
  },
  {
   "property": "C56",
   "status": "proved",
   "theorems": [
    "Verif.Props.R1cs.C56_deterministic"
   ],
   "note": "Bytes depend only on map contents."
  },
  {
   "property": "C57",
   "status": "partial",
   "theorems": [
    "Verif.Props.Dag.C57_address_partial",
    "Verif.Props.Dag.C57_subcomponent_partial",
    "Verif.Props.Dag.C57_jumps_partial"
   ],
   "note": "Proved for programs whose templates declare no signal name twice; circom accepts such declarations in different blocks, and then the claim fails or is not covered (C34_violated)."
  },
  {
   "property": "C58",
   "status": "partial",
   "theorems": [
    "Verif.Props.Dag.C58_stats_partial"
   ],
   "note": "Proved for programs whose templates declare no signal name twice; circom accepts such declarations in different blocks, and then the claim fails or is not covered (C34_violated)."
  },
  {
   "property": "C59",
   "status": "partial",
   "theorems": [
    "Verif.Props.Export.C59_plain_partial",
    "Verif.Props.Export.C59_simplified_partial"
   ],
   "note": "Missing: templates declaring two signals of the same name in different blocks."
  },
  {
   "property": "C60",
   "status": "partial",
   "theorems": [
    "Verif.Props.Export.C60_plain_partial",
    "Verif.Props.Export.C60_simplified_partial",
    "Verif.Props.Export.C60_violated"
   ],
   "note": "Missing: soundness for programs without solutions, where it is false (C60_violated), and templates declaring two signals of one name."
  },
  {
   "property": "C61",
   "status": "proved",
   "theorems": [
    "Verif.Props.Memory.C61_lenient"
   ],
   "note": "All shapes with the same number of dimensions."
  },
  {
   "property": "C62",
   "status": "partial",
   "theorems": [
    "Verif.Props.Exec.C62_constraints_partial",
    "Verif.Props.Exec.C62_constraints_flat_loops",
    "Verif.Props.Exec.C62_violated"
   ],
   "note": "Same shape as C45: fails for unsettled unknown loops, proved otherwise and unconditionally for flat loop bodies."
  },
  {
   "property": "C63",
   "status": "partial",
   "theorems": [
    "Verif.Props.Inputs.C63_names",
    "Verif.Props.Inputs.C63_load",
    "Verif.Props.Inputs.C63_load_sound",
    "Verif.Props.Inputs.C63_empty_field_violated",
    "Verif.Props.Inputs.C63_empty_input_violated",
    "Verif.Props.Inputs.C63_no_run_violated"
   ],
   "note": "Names distinct and covering, loading complete and sound, for circuits with at least one input signal and bus arrays with elements. The excluded points are real failures: division by zero in the compiler for empty bus arrays and empty array fields of buses, and a calculation never started when the only inputs are empty arrays that are given. JSON parsing is not modelled."
  },
  {
   "property": "C64",
   "status": "partial",
   "theorems": [
    "Verif.Props.Address.C64_total",
    "Verif.Props.Address.C64_wasm_partial",
    "Verif.Props.Address.C64_cpp_partial",
    "Verif.Props.Address.C64_wasm_violated",
    "Verif.Props.Address.C64_cpp_violated",
    "Verif.Props.Address.C64_toInt_exact",
    "Verif.Props.Address.C64_toInt_violated"
   ],
   "note": "Violated by the code: converting the parts of an index one by one differs from converting its field value once a part leaves the 32-bit range; negations with witnesses for both targets. Proved when every converted part is a 32-bit integer and the machine arithmetic does not overflow."
  },
  {
   "property": "C65",
   "status": "proved",
   "theorems": [
    "Verif.Props.Address.C65_total",
    "Verif.Props.Address.C65_value",
    "Verif.Props.Address.C65_wasm",
    "Verif.Props.Address.C65_range",
    "Verif.Props.Address.C65_order",
    "Verif.Props.Address.C65_component",
    "Verif.Props.Address.C65_reduce"
   ],
   "note": "Exact value of generated addresses, range, disjointness, order, component positions, constant folding."
  },
  {
   "property": "C66",
   "status": "partial",
   "theorems": [
    "Verif.Props.Mapped.C66_wasm_partial",
    "Verif.Props.Mapped.C66_wasm_nested_violated",
    "Verif.Props.Mapped.C66_cpp_partial",
    "Verif.Props.Mapped.C66_cpp_load_violated",
    "Verif.Props.Mapped.C66_cpp_store_violated"
   ],
   "note": "Violated by the code in the listed cases (negations with witnesses); proved for all other accesses over all tables."
  },
  {
   "property": "C67",
   "status": "partial",
   "theorems": [
    "Verif.Props.Mapped.C67_cpp_partial",
    "Verif.Props.Mapped.C67_cpp_violated",
    "Verif.Props.Mapped.C67_wasm",
    "Verif.Props.Mapped.C67_codes_partial",
    "Verif.Props.Mapped.C67_codes_violated",
    "Verif.Props.Mapped.C67_codes_panic"
   ],
   "note": "wasm tables proved in full. C++ tables: violated for buses with more than ten fields, proved otherwise. Codes: violated when instances of a template declare different inputs or outputs, proved otherwise."
  },
  {
   "property": "C68",
   "status": "partial",
   "theorems": [
    "Verif.Props.Copy.C68_cpp_partial",
    "Verif.Props.Copy.C68_cpp_violated",
    "Verif.Props.Copy.C68_wasm_partial",
    "Verif.Props.Copy.C68_wasm_violated",
    "Verif.Props.Copy.C68_rerun_violated",
    "Verif.Props.Copy.C68_shape_violated"
   ],
   "note": "Copy of min(sizes) elements proved for both programs for non-empty sizes (C++) and for template-dependent sizes that do not exceed the destination (wasm); negations proved for size 0 in C++, too large template-dependent sources in wasm, re-running after empty assignments, and arrays of different shapes."
  },
  {
   "property": "C69",
   "status": "partial",
   "theorems": [
    "Verif.Props.Runs.C69_partial",
    "Verif.Props.Runs.C69_assert",
    "Verif.Props.Runs.C69_anonymous_violated",
    "Verif.Props.Runs.C69_unassigned_violated",
    "Verif.Props.Runs.C69_empty_violated"
   ],
   "note": "Proved for all instruction lists and executions with non-empty assignments, complete inputs and anonymous components whose arguments are assigned unconditionally; negations proved where these hypotheses fail."
  },
  {
   "property": "C70",
   "status": "partial",
   "theorems": [
    "Verif.Props.Fill.C70_fed_partial",
    "Verif.Props.Fill.C70_conditional_partial",
    "Verif.Props.Fill.C70_single_partial",
    "Verif.Props.Fill.C70_accepted",
    "Verif.Props.Fill.C70_delayed_partial",
    "Verif.Props.Fill.C70_branches_violated",
    "Verif.Props.Fill.C70_underflow_violated",
    "Verif.Props.Fill.C70_empty_violated",
    "Verif.Props.Fill.C70_delayed_violated"
   ],
   "note": "Proved for unconditional assignments of non-empty values; with conditions when no two statements concern the same signal, and for all conditional assignments when every input is a single signal. The negations for branches, empty arrays and postponed conditional assignments are proved with witnesses. Missing: conditional assignments to the same cell of an array or bus in branches that do not trigger the faults; tags."
  },
  {
   "property": "C71",
   "status": "partial",
   "theorems": [
    "Verif.Props.Sugar.C71_sound_partial",
    "Verif.Props.Sugar.C71_complete_partial",
    "Verif.Props.Sugar.C71_functions_partial",
    "Verif.Props.Sugar.C71_translatable_partial",
    "Verif.Props.Sugar.C71_equality_partial",
    "Verif.Props.Sugar.C71_condition_violated",
    "Verif.Props.Sugar.C71_body_violated",
    "Verif.Props.Sugar.C71_swap_violated",
    "Verif.Props.Sugar.C71_recursion_violated",
    "Verif.Props.Sugar.C71_leftover_violated",
    "Verif.Props.Sugar.C71_equality_violated"
   ],
   "note": "Soundness for programs whose loops have nothing to hoist from condition or unbraced body, literals not assigned to variables they name, array equalities only between literals of equal length (literal against variable: C71_equality_partial); completeness if also nothing is hoisted from branches; translatability for neat sources. The excluded cases are shown to be violated. Not modelled: buses as whole values, shorter rows filled with zeros."
  },
  {
   "property": "C72",
   "status": "partial",
   "theorems": [
    "Verif.Props.Filters.C72_partial",
    "Verif.Props.Filters.C72_known",
    "Verif.Props.Filters.C72_flat_loops",
    "Verif.Props.Filters.C72_total",
    "Verif.Props.Filters.C72_records",
    "Verif.Props.Filters.C72_loop_violated",
    "Verif.Props.Filters.C72_ternary_violated",
    "Verif.Props.Filters.C72_endless_violated"
   ],
   "note": "Proved for all programs of the scalar fragment whose left-out visits (third pass over loops with unknown condition, unevaluated branches of inline conditionals) agree with the records, in particular with known loop conditions or flat loop bodies. The negations for the rest are proved with witnesses. Components, buses, arrays, calls and logs are not in the fragment."
  },
  {
   "property": "C73",
   "status": "partial",
   "theorems": [
    "Verif.Props.Known.C73_partial",
    "Verif.Props.Known.C73_values",
    "Verif.Props.Known.C73_terminates",
    "Verif.Props.Known.C73_nested_violated",
    "Verif.Props.Known.C73_hidden_violated",
    "Verif.Props.Known.C73_param_violated",
    "Verif.Props.Known.C73_self_violated"
   ],
   "note": "Full statement violated by the code (four negations with witnesses). Proved: termination for all programs; soundness for templates whose branches and loop bodies assign or declare, outside of inner loops, every variable they assign, with unassigned parameters and initialised declarations."
  },
  {
   "property": "C74",
   "status": "partial",
   "theorems": [
    "Verif.Props.Anon.C74_partial",
    "Verif.Props.Anon.C74_total",
    "Verif.Props.Anon.C74_violated",
    "Verif.Props.Anon.C74_violated_parameter"
   ],
   "note": "Violated as stated: the checks do not look inside an anonymous component under parallel (two negations proved). Proved for all templates where the checks also hold there; C74_total: the pass never aborts on such templates. Operators, calls and accesses are one constructor; accesses on left sides are left out."
  },
  {
   "property": "C75",
   "status": "partial",
   "theorems": [
    "Verif.Props.Anon.C75_partial",
    "Verif.Props.Anon.C75_sizes",
    "Verif.Props.Anon.C75_violated",
    "Verif.Props.Anon.C75_violated_name"
   ],
   "note": "Violated as stated: a component in a later element of a tuple reads variables before the earlier elements are assigned; a user variable may have the name of a generated counter (negations proved). Proved for all templates without these: if the template runs, the desugared one runs with the same variables, log and instances. Not shown: that a template that fails also fails after the pass."
  },
  {
   "property": "C76",
   "status": "partial",
   "theorems": [
    "Verif.Props.ArrExec.C76_constraints_partial",
    "Verif.Props.ArrExec.C76_cells_partial",
    "Verif.Props.ArrExec.C76_cellwise",
    "Verif.Props.ArrExec.C76_inline",
    "Verif.Props.ArrExec.C76_uniform",
    "Verif.Props.ArrExec.C76_bounds",
    "Verif.Props.ArrExec.C76_violated",
    "Verif.Props.ArrExec.C76_switch_violated",
    "Verif.Props.ArrExec.C76_abort_violated"
   ],
   "note": "Full statement violated (three witnesses). Proved for every execution in which no array is replaced by a single unknown cell, and without that hypothesis for bodies whose indexed reads go down to one cell. Array literals and bounds are stated by positions (C76_inline, C76_uniform, C76_bounds); reading and writing parts by C40, C41, C61. Missing: loops with unknown condition (C45), components, buses."
  },
  {
   "property": "C77",
   "status": "partial",
   "theorems": [
    "Verif.Props.Types.C77_partial",
    "Verif.Props.Types.C77_main_partial",
    "Verif.Props.Types.C77_violated",
    "Verif.Props.Types.C77_shadow_violated",
    "Verif.Props.Types.C77_shadow_reject",
    "Verif.Props.Types.C77_ports_violated",
    "Verif.Props.Types.C77_endless_violated",
    "Verif.Props.Types.C77_unable_violated"
   ],
   "note": "Proved for all programs of the fragment whose signals and components have names of their own, all executions and depths, any guess of function types; values of unknown conditions and positions fit everywhere. The unrestricted statement is false: negations proved for lost dimensions, shadowed names, ports declared twice, termination, and completeness. Buses and tags are not modelled."
  },
  {
   "property": "C78",
   "status": "proved",
   "theorems": [
    "Verif.Props.Types.C78",
    "Verif.Props.Types.C78_types_partial"
   ],
   "note": "For all programs, executions and depths of calls; together with C77 an execution ends only with a value or where the model stops."
  },
  {
   "property": "C79",
   "status": "partial",
   "theorems": [
    "Verif.Props.Ir.C79_function_partial",
    "Verif.Props.Ir.C79_template_partial",
    "Verif.Props.Ir.C79_reduce",
    "Verif.Props.Ir.C79_prime",
    "Verif.Props.Ir.C79_log_violated",
    "Verif.Props.Ir.C79_equality_violated",
    "Verif.Props.Ir.C79_equality_left_violated",
    "Verif.Props.Ir.C79_tag_violated"
   ],
   "note": "Functions and templates, for all programs of the fragment whose calls in expressions return one element and whose functions called in log have at most 200 variables; negations for the rest. Missing: components, buses, parallel templates; goldilocks (literals above p/2 in indices)."
  },
  {
   "property": "C80",
   "status": "proved",
   "theorems": [
    "Verif.Props.Gold.C80_infix",
    "Verif.Props.Gold.C80_prefix",
    "Verif.Props.Gold.C80_undefined",
    "Verif.Props.Gold.C80_truthy",
    "Verif.Props.Gold.C80_toInt",
    "Verif.Props.Gold.C80_toInt_edge",
    "Verif.Props.Gold.C80_eqN"
   ],
   "note": "All operators, all elements. GMP's mpz_invert is modelled by its specification."
  },
  {
   "property": "C81",
   "status": "proved",
   "theorems": [
    "Verif.Props.Frg.C81_infix",
    "Verif.Props.Frg.C81_prefix",
    "Verif.Props.Frg.C81_undefined",
    "Verif.Props.Frg.C81_truthy",
    "Verif.Props.Frg.C81_print",
    "Verif.Props.Frg.C81_read",
    "Verif.Props.Frg.C81_unique",
    "Verif.Props.Frg.C81_primes"
   ],
   "note": "All operators, all forms of the operands. GMP's functions are modelled by their documentation; the destination is not an operand. rawNegLS on (0,0) would leave q unreduced but is never called so."
  },
  {
   "property": "C82",
   "status": "proved",
   "theorems": [
    "Verif.Props.Wtns.C82_read",
    "Verif.Props.Wtns.C82_cpp",
    "Verif.Props.Wtns.C82_cpp64",
    "Verif.Props.Wtns.C82_js",
    "Verif.Props.Wtns.C82_same",
    "Verif.Props.Wtns.C82_same64",
    "Verif.Props.Wtns.C82_primes",
    "Verif.Props.Wtns.C82_words",
    "Verif.Props.Wtns.C82_length_violated"
   ],
   "note": "Little-endian machine assumed. C82_length_violated: section lengths from 2^32 on would be written wrongly by the JavaScript program; no module has that much memory. The WebAssembly code that copies an element to shared memory is not modelled."
  },
  {
   "property": "C83",
   "status": "proved",
   "theorems": [
    "Verif.Props.JsonIn.C83_same",
    "Verif.Props.JsonIn.C83_cpp",
    "Verif.Props.JsonIn.C83_js",
    "Verif.Props.JsonIn.C83_load",
    "Verif.Props.JsonIn.C83_strings",
    "Verif.Props.JsonIn.C83_numbers",
    "Verif.Props.JsonIn.C83_double_violated",
    "Verif.Props.JsonIn.C83_accepted_violated",
    "Verif.Props.JsonIn.C83_keys_violated",
    "Verif.Props.JsonIn.C83_proto_violated"
   ],
   "note": "Parsing of the text itself is not modelled; a double is its exact value. The _violated theorems show where the conditions of the statement are needed. Order of properties that look like numbers in JavaScript is not modelled (names are identifiers)."
  },
  {
   "property": "C84",
   "status": "partial",
   "theorems": [
    "Verif.Props.WFr.C84_infix_partial",
    "Verif.Props.WFr.C84_undefined",
    "Verif.Props.WFr.C84_prefix",
    "Verif.Props.WFr.C84_truthy",
    "Verif.Props.WFr.C84_index",
    "Verif.Props.WFr.C84_limbs",
    "Verif.Props.WFr.C84_primes",
    "Verif.Props.WFr.C84_constants",
    "Verif.Props.WFr.C84_pow_violated"
   ],
   "note": "All operators, for all forms of the operands and all memories, the eight primes included; fails for a power whose operands are the same element (C84_pow_violated), excluded in C84_infix_partial. Elements do not overlap in the model."
  },
  {
   "property": "C85",
   "status": "partial",
   "theorems": [
    "Verif.Props.WMem.C85_layout",
    "Verif.Props.WMem.C85_numbers",
    "Verif.Props.WMem.C85_names",
    "Verif.Props.WMem.C85_tables",
    "Verif.Props.WMem.C85_messages",
    "Verif.Props.WMem.C85_hash",
    "Verif.Props.WMem.C85_prime",
    "Verif.Props.WMem.C85_witness",
    "Verif.Props.WMem.C85_load",
    "Verif.Props.WMem.C85_file",
    "Verif.Props.WMem.C85_refused",
    "Verif.Props.WMem.C85_unknown_violated",
    "Verif.Props.WMem.C85_twice_violated"
   ],
   "note": "Layout, first contents, loading of inputs from a file that follows the declarations, prime and witness words are proved for all circuits. Not so: inputs are not marked as set and an unknown name with an empty array is accepted (violated theorems with cases). The generated create and run functions are parameters assumed to leave the tables alone; hashes of names are assumed distinct and non-zero (C51)."
  },
  {
   "property": "C86",
   "status": "partial",
   "theorems": [
    "Verif.Props.Grammar.C86_unique",
    "Verif.Props.Grammar.C86_written",
    "Verif.Props.Grammar.C86_two",
    "Verif.Props.Grammar.C86_else",
    "Verif.Props.Grammar.C86_short",
    "Verif.Props.Grammar.C86_declared",
    "Verif.Props.Grammar.C86_tuple",
    "Verif.Props.Grammar.C86_defined",
    "Verif.Props.Grammar.C86_refused",
    "Verif.Props.Grammar.C86_text_partial",
    "Verif.Props.Grammar.C86_text_violated"
   ],
   "note": "Proved about the rules for all token sequences. Partial because of log texts: cut into pieces only when no character lies across byte 230, else the parser panics (C86_text_violated). For the tokens see C87; the generated parser is not modelled."
  },
  {
   "property": "C87",
   "status": "partial",
   "theorems": [
    "Verif.Props.Lexer.C87_longest",
    "Verif.Props.Lexer.C87_join",
    "Verif.Props.Lexer.C87_written",
    "Verif.Props.Lexer.C87_words",
    "Verif.Props.Lexer.C87_signs",
    "Verif.Props.Lexer.C87_comments",
    "Verif.Props.Lexer.C87_hex_violated"
   ],
   "note": "Proved for all texts about the default tokenizer of LALRPOP on the literals and regular expressions of the grammar. Partial because 0x without digits panics (C87_hex_violated)."
  },
  {
   "property": "C88",
   "status": "partial",
   "theorems": [
    "Verif.Props.Inst.C88_linked",
    "Verif.Props.Inst.C88_distinct",
    "Verif.Props.Inst.C88_found",
    "Verif.Props.Inst.C88_ends",
    "Verif.Props.Inst.C88_returns_partial",
    "Verif.Props.Inst.C88_same_partial",
    "Verif.Props.Inst.C88_switch_violated",
    "Verif.Props.Inst.C88_nested_violated",
    "Verif.Props.Inst.C88_larger_violated",
    "Verif.Props.Inst.C88_recursive_violated",
    "Verif.Props.Inst.C88_clash_violated"
   ],
   "note": "Linked to the right instance, same code, distinct instances, no missing instance: proved for all programs in which no called name is also the name of an instance. Room for returned values: proved where no call decides the dimensions and they are of at most one dimension (or all the same). The rest fails in the code, with witnesses."
  },
  {
   "property": "C89",
   "status": "partial",
   "theorems": [
    "Verif.Props.Inspect.C89_exact_partial",
    "Verif.Props.Inspect.C89_arrays",
    "Verif.Props.Inspect.C89_silent_partial",
    "Verif.Props.Inspect.C89_total",
    "Verif.Props.Inspect.C89_visited_violated"
   ],
   "note": "Exact set of warnings, without repetition, for the first instance of each name; array structure; silence; when the analysis aborts. A later instance with the name of an earlier one is skipped by the code (witness)."
  },
  {
   "property": "C90",
   "status": "partial",
   "theorems": [
    "Verif.Props.Expand.C90_value_partial",
    "Verif.Props.Expand.C90_trace_partial",
    "Verif.Props.Expand.C90_bus_partial",
    "Verif.Props.Expand.C90_total_partial",
    "Verif.Props.Expand.C90_shadow_violated",
    "Verif.Props.Expand.C90_capture_violated",
    "Verif.Props.Expand.C90_length_violated",
    "Verif.Props.Expand.C90_total_violated",
    "Verif.Props.Expand.C90_log_violated"
   ],
   "note": "Proved for all meanings of operators and calls: same value and same failures for bodies in which no name is declared where it is visible; same logs, constraints and declared lengths when called functions log nothing; no panic when no length reads a name of its own declaration. Missing: bodies that hide names, lengths independent of arguments, and the five violated parts, each with a witness."
  },
  {
   "property": "C91",
   "status": "partial",
   "theorems": [
    "Verif.Props.Struct.C91_loop",
    "Verif.Props.Struct.C91_custom",
    "Verif.Props.Struct.C91_custom_needed_partial",
    "Verif.Props.Struct.C91_bus_partial",
    "Verif.Props.Struct.C91_total_partial",
    "Verif.Props.Struct.C91_underscore_violated",
    "Verif.Props.Struct.C91_total_violated",
    "Verif.Props.Struct.C91_fields_violated"
   ],
   "note": "C91_loop and C91_custom hold as stated; C91_custom_needed_partial excludes _ <== e (rejected without need, C91_underscore_violated); C91_bus_partial: a bus passes iff it runs, with the collected fields (that they are distinct fails: C91_fields_violated); C91_total_partial without tuples (panic: C91_total_violated)."
  },
  {
   "property": "C92",
   "status": "partial",
   "theorems": [
    "Verif.Props.Log.C92_log_partial",
    "Verif.Props.Log.C92_error",
    "Verif.Props.Log.C92_newline_violated",
    "Verif.Props.Log.C92_percent_violated",
    "Verif.Props.Log.C92_utf8_violated",
    "Verif.Props.Log.C92_split_violated",
    "Verif.Props.Log.C92_boundary_violated"
   ],
   "note": "Holds for visible ASCII texts of at most 230 bytes; the other texts are faults, proved. Messages of assertions without that restriction. That logged values reach the shared memory is C85."
  },
  {
   "property": "C93",
   "status": "partial",
   "theorems": [
    "Verif.Props.Infer.C93_text",
    "Verif.Props.Infer.C93_last_partial",
    "Verif.Props.Infer.C93_more_partial",
    "Verif.Props.Infer.C93_needed",
    "Verif.Props.Infer.C93_agree_partial",
    "Verif.Props.Infer.C93_branches_violated"
   ],
   "note": "For templates whose signals, components and variables have names of their own (hypothesis Once, and one declaration of the component for the mark), without buses and anonymous components, and with disjoint names of functions and templates. Missing: names declared in several blocks, where the statement is false (C93_branches_violated). C93_needed shows that the marks do accept more."
  },
  {
   "property": "C94",
   "status": "partial",
   "theorems": [
    "Verif.Props.Reduce.C94_marks_partial",
    "Verif.Props.Reduce.C94_exact_partial",
    "Verif.Props.Reduce.C94_switch_violated",
    "Verif.Props.Reduce.C94_order_violated",
    "Verif.Props.Reduce.C94_parallel_violated",
    "Verif.Props.Reduce.C94_wrong_violated",
    "Verif.Props.Reduce.C94_shadow_violated"
   ],
   "note": "Proved for every instantiated template of an accepted program: no report or panic of the marking pass, plain names marked as declared, ports marked as signals when a call is assigned to the component earlier in the text, and code generation losing only component assignments and assignments to _. Restricted to names of their own, no parallel before ?:, instances with as many arguments as parameters; buses are not modelled. The unrestricted statement fails: a component assigned by ?: or later in the text loses its port assignments in the witness program (witnesses), and three forms make the compiler panic."
  },
  {
   "property": "C95",
   "status": "partial",
   "theorems": [
    "Verif.Props.JsonOut.C95_read",
    "Verif.Props.JsonOut.C95_order",
    "Verif.Props.JsonOut.C95_plain_partial",
    "Verif.Props.JsonOut.C95_simplified_partial",
    "Verif.Props.JsonOut.C95_substitutions"
   ],
   "note": "C95_read, C95_order and C95_substitutions hold for all lists of constraints and substitutions. The comparison with the R1CS file (plain and simplified) holds for programs whose templates declare each name once, as for C34, and if the R1CS file fits its number widths."
  },
  {
   "property": "C96",
   "status": "proved",
   "theorems": [
    "Verif.Props.Archive.C96_accept",
    "Verif.Props.Archive.C96_reports",
    "Verif.Props.Archive.C96_order",
    "Verif.Props.Archive.C96_contents",
    "Verif.Props.Archive.C96_kinds",
    "Verif.Props.Archive.C96_ids",
    "Verif.Props.Archive.C96_index"
   ],
   "note": "Acceptance, reports, contents of the tables with wires, disjointness of kinds and the numbering, for all programs, about the archive as ProgramArchive::new returns it."
  },
  {
   "property": "C97",
   "status": "partial",
   "theorems": [
    "Verif.Props.Driver.C97_accept",
    "Verif.Props.Driver.C97_level",
    "Verif.Props.Driver.C97_sanity",
    "Verif.Props.Driver.C97_prime",
    "Verif.Props.Driver.C97_failure",
    "Verif.Props.Driver.C97_effect",
    "Verif.Props.Driver.C97_success",
    "Verif.Props.Driver.C97_once_partial",
    "Verif.Props.Driver.C97_once_violated",
    "Verif.Props.Driver.C97_source_partial",
    "Verif.Props.Driver.C97_source_violated"
   ],
   "note": "No file is written twice except for a program named json2bin64 with --c and goldilocks (C97_once_violated); the program survives unless it lies in a folder the run makes anew (C97_source_violated). Stages and single file operations are outcomes given from outside; paths are lists of names."
  },
  {
   "property": "C98",
   "status": "partial",
   "theorems": [
    "Verif.Props.TableSize.C98_room_partial",
    "Verif.Props.TableSize.C98_found_partial",
    "Verif.Props.TableSize.C98_room_violated",
    "Verif.Props.TableSize.C98_converter_partial",
    "Verif.Props.TableSize.C98_converter_violated"
   ],
   "note": "Holds up to 2^21 inputs and fails at 2^k + 1 for 21 <= k < 32 (C98_room_violated); the converter for goldilocks works up to 256 inputs and fails for a program with 257 (C98_converter_violated). f32::log2 is assumed to round correctly."
  },
  {
   "property": "C99",
   "status": "partial",
   "theorems": [
    "Verif.Props.SymText.C99_read",
    "Verif.Props.SymText.C99_plain_partial",
    "Verif.Props.SymText.C99_simplified_partial"
   ],
   "note": "For programs that meet the hypotheses of C34 (no two signals of one name in different blocks) and whose identifiers contain no comma or line end, as the grammar demands."
  }
 ]
}
