{
 "claims": [
  {
   "property": "C01",
   "status": "proved",
   "theorems": [
    "Slugs.Props.C01_winning_positions_sound"
   ],
   "note": ""
  },
  {
   "property": "C02",
   "status": "proved",
   "theorems": [
    "Slugs.Props.C02_losing_positions_complete"
   ],
   "note": ""
  },
  {
   "property": "C03",
   "status": "proved",
   "theorems": [
    "Slugs.Props.C03_terminates"
   ],
   "note": ""
  },
  {
   "property": "C04",
   "status": "proved",
   "theorems": [
    "Slugs.Props.C04_verdict_exact"
   ],
   "note": ""
  },
  {
   "property": "C05",
   "status": "proved",
   "theorems": [
    "Slugs.Props.C05_no_internal_error"
   ],
   "note": "For every text, every number of rounds, both semantics."
  },
  {
   "property": "C06",
   "status": "proved",
   "theorems": [
    "Slugs.Props.C06_robotics_verdict_exact"
   ],
   "note": ""
  },
  {
   "property": "C07",
   "status": "proved",
   "theorems": [
    "Slugs.Props.C07_complement",
    "Slugs.Props.C07_verdict"
   ],
   "note": ""
  },
  {
   "property": "C08",
   "status": "proved",
   "theorems": [
    "Slugs.Props.C08_same_result",
    "Slugs.Props.C08_same_output"
   ],
   "note": ""
  },
  {
   "property": "C09",
   "status": "proved",
   "theorems": [
    "Slugs.Props.C09_same_positions",
    "Slugs.Props.C24_text_to_verdict",
    "Slugs.Props.C10_complete_and_safe",
    "Slugs.Props.C11_live",
    "Slugs.Props.C12_terminates",
    "Slugs.Props.C15_never_blocks",
    "Slugs.Props.C15_live"
   ],
   "note": "The theorems about complete runs quantify over the versions of the algorithm (alg), among them the bias for action."
  },
  {
   "property": "C10",
   "status": "proved",
   "theorems": [
    "Slugs.Props.C10_complete_and_safe",
    "Slugs.Props.C10_initial_states",
    "Slugs.Props.C10_initial_states_first",
    "Slugs.Props.C10_only_allowed_inputs"
   ],
   "note": "For GR1Context, recycling, bias for action, in both initialisation semantics, with and without recovery."
  },
  {
   "property": "C11",
   "status": "proved",
   "theorems": [
    "Slugs.Props.C11_live",
    "Slugs.Props.C11_live_recovery"
   ],
   "note": ""
  },
  {
   "property": "C12",
   "status": "proved",
   "theorems": [
    "Slugs.Props.C12_terminates",
    "Slugs.Props.C12_well_formed",
    "Slugs.Props.C12_reachable"
   ],
   "note": ""
  },
  {
   "property": "C13",
   "status": "proved",
   "theorems": [
    "Slugs.Props.C13_determinize",
    "Slugs.Props.C13_determinizeRandomized"
   ],
   "note": ""
  },
  {
   "property": "C14",
   "status": "proved",
   "theorems": [
    "Slugs.Props.C14_permissive"
   ],
   "note": ""
  },
  {
   "property": "C15",
   "status": "proved",
   "theorems": [
    "Slugs.Props.C15_written",
    "Slugs.Props.C15_readable",
    "Slugs.Props.C15_never_blocks",
    "Slugs.Props.C15_live",
    "Slugs.Props.C15_never_blocks_selector",
    "Slugs.Props.C15_live_selector",
    "Slugs.Props.C15_runs_exist"
   ],
   "note": "For GR1Context and robotics semantics, both encodings of the goals. The DDDMP file format is not modelled."
  },
  {
   "property": "C16",
   "status": "partial",
   "theorems": [
    "Slugs.Props.C16_never_stuck_partial",
    "Slugs.Props.C16_terminates_partial",
    "Slugs.Props.C16_violated_without_outputs"
   ],
   "note": "The code violates the full property for specifications without output variables (proved with a witness); proved for all specifications with an output variable."
  },
  {
   "property": "C17",
   "status": "proved",
   "theorems": [
    "Slugs.Props.C17_reading_yields_meaning",
    "Slugs.Props.C17_round_trip",
    "Slugs.Props.C17_accepted_only_if_formula"
   ],
   "note": "Names that coincide with operator words cannot be used in formulas and are excluded."
  },
  {
   "property": "C18",
   "status": "proved",
   "theorems": [
    "Slugs.Props.C18_operand_order"
   ],
   "note": ""
  },
  {
   "property": "C19",
   "status": "proved",
   "theorems": [
    "Slugs.Props.C19_dependence",
    "Slugs.Props.C19_well_scoped"
   ],
   "note": ""
  },
  {
   "property": "C20",
   "status": "partial",
   "theorems": [
    "Slugs.Props.C20_reading_ends_partial",
    "Slugs.Props.C20_no_buffer_partial",
    "Slugs.Props.C20_well_formed_partial",
    "Slugs.Props.C20_violated_empty_buffer",
    "Slugs.Props.C20_violated_recall"
   ],
   "note": "The code violates the full property: lines such as \"$ 0\" have undefined behaviour (proved). Proved for lines without \"$\" and for texts of well-formed formulas."
  },
  {
   "property": "C21",
   "status": "proved",
   "theorems": [
    "Slugs.Props.C21_swap_exchanges",
    "Slugs.Props.C21_groups_partition"
   ],
   "note": ""
  },
  {
   "property": "C22",
   "status": "proved",
   "theorems": [
    "Slugs.Props.C22_ambiguous_rejected",
    "Slugs.Props.C22_names_unique",
    "Slugs.Props.C22_duplicate_error"
   ],
   "note": ""
  },
  {
   "property": "C23",
   "status": "proved",
   "theorems": [
    "Slugs.Props.C23_insert_line",
    "Slugs.Props.C23_permute_same_context",
    "Slugs.Props.C23_permute_same_verdict"
   ],
   "note": "If a file is rejected, which error is reported may depend on the order of lines."
  },
  {
   "property": "C24",
   "status": "proved",
   "theorems": [
    "Slugs.Props.C24_text_to_verdict",
    "Slugs.Props.C24_accepted_denotes",
    "Slugs.Props.C24_proper_accepted",
    "Slugs.Props.C24_printed_is_right"
   ],
   "note": ""
  },
  {
   "property": "C25",
   "status": "proved",
   "theorems": [
    "Slugs.Props.C25_unknown",
    "Slugs.Props.C25_unsupported",
    "Slugs.Props.C25_no_option_ignored",
    "Slugs.Props.C25_order_irrelevant"
   ],
   "note": "The table of option combinations is part of the model, entry by entry."
  },
  {
   "property": "C26",
   "status": "proved",
   "theorems": [
    "Slugs.Props.C26_exact",
    "Slugs.Props.C26_nan"
   ],
   "note": "Rounding of double values is not modelled: numbers are natural numbers or NaN."
  },
  {
   "property": "C27",
   "status": "proved",
   "theorems": [
    "Slugs.Props.C27_terminates",
    "Slugs.Props.C27_numbers",
    "Slugs.Props.C27_clauses",
    "Slugs.Props.C27_prime",
    "Slugs.Props.C27_liveness"
   ],
   "note": "Cubes about next values only are printed as cubes about current values, which is why the liveness lines are only equivalent infinitely often. The text of a line is modelled (CnfLine.text), the theorems are about lines."
  },
  {
   "property": "C28",
   "status": "proved",
   "theorems": [
    "Slugs.Props.C28_positions",
    "Slugs.Props.C28_verdict"
   ],
   "note": ""
  },
  {
   "property": "C29",
   "status": "partial",
   "theorems": [
    "Slugs.Props.C29_lines",
    "Slugs.Props.C29_needed_is_reported",
    "Slugs.Props.C29_liveness_assumptions_right_partial",
    "Slugs.Props.C29_crucial_violated",
    "Slugs.Props.C29_crucial_violated_single"
   ],
   "note": "Does not hold: all safety assumptions are left out together with the liveness assumption (line 379), and no TRUE assumption is added when the last liveness assumption is left out. Both are proved by concrete files; proved: needed assumptions are always reported as crucial, the exact meaning of every line, and the claim for files without safety assumptions and with at least two liveness assumptions."
  },
  {
   "property": "C30",
   "status": "partial",
   "theorems": [
    "Slugs.Props.C30_list_partial",
    "Slugs.Props.C30_list_violated",
    "Slugs.Props.C30_undefined"
   ],
   "note": "Does not hold: the last output of the file is always listed once some output is (witness file C30_list_violated), since the list is computed from stale types; and if no output can be set early an uninitialised variable is read (C30_undefined, exactly characterised). Proved: without that last output the list is right and maximal."
  },
  {
   "property": "C31",
   "status": "partial",
   "theorems": [
    "Slugs.Props.C31_environment_trace_partial",
    "Slugs.Props.C31_environment_table_sound",
    "Slugs.Props.C31_environment_trace_violated"
   ],
   "note": "Does not hold if some initial input (even one excluded by the initial assumptions) has no allowed initial output: the loop then stops after one round, and it may be printed that there is no strategy although the environment wins in two rounds (witness file). Proved if every initial input has an allowed initial output."
  },
  {
   "property": "C32",
   "status": "proved",
   "theorems": [
    "Slugs.Props.C32_reachable_exact",
    "Slugs.Props.C36_numbers_exact_partial"
   ],
   "note": "C36_numbers_exact_partial carries the result to the numbers printed for a file."
  },
  {
   "property": "C33",
   "status": "proved",
   "theorems": [
    "Slugs.Props.C33_cooperative_verdict_exact",
    "Slugs.Props.C33_cooperative_printed_is_right",
    "Slugs.Props.C33_cooperative_terminates",
    "Slugs.Props.C33_never_dead_end",
    "Slugs.Props.C33_assumptions_can_be_fulfilled",
    "Slugs.Props.C33_implements",
    "Slugs.Props.C33_cooperative_is_winning"
   ],
   "note": "The computed set is exactly the set of positions with a cooperative strategy (soundness and completeness of the four nested fixed points); holds for every file text and every implementation of the BDD contract. The combination with symbolic and interactive strategies is not modelled."
  },
  {
   "property": "C34",
   "status": "proved",
   "theorems": [
    "Slugs.Props.C34_contract_met",
    "Slugs.Props.C34_pointers"
   ],
   "note": ""
  },
  {
   "property": "C35",
   "status": "partial",
   "theorems": [
    "Slugs.Props.C35_initial_states",
    "Slugs.Props.C35_losing_runs_partial",
    "Slugs.Props.C35_violated_two_guarantees"
   ],
   "note": "The code violates the full property for two liveness guarantees (proved with a witness); infinite runs are proved to be losing for at most one guarantee, for all specifications with an output variable."
  },
  {
   "property": "C36",
   "status": "partial",
   "theorems": [
    "Slugs.Props.C36_numbers_exact_partial",
    "Slugs.Props.C36_losing_inputs_partial",
    "Slugs.Props.C36_terminates",
    "Slugs.Props.C36_losing_inputs_violated"
   ],
   "note": "Ten of the eleven numbers are proved exact; the number of initial inputs that force the system to lose is printed as nan in some cases (proved with witnesses), and the cases are characterised exactly. Rounding of double values is not modelled."
  },
  {
   "property": "C37",
   "status": "partial",
   "theorems": [
    "Slugs.Props.C37_file_names_partial",
    "Slugs.Props.C37_counterstrategy",
    "Slugs.Props.C37_violated_counterstrategy"
   ],
   "note": "Holds in all modes except --counterStrategy, where the roles are swapped (proved with a witness)."
  },
  {
   "property": "C38",
   "status": "proved",
   "theorems": [
    "Slugs.Props.C38_analysis_terminates",
    "Slugs.Props.C38_safety_assumptions_right"
   ],
   "note": "The remark \"(but not in most general stategy)\" after a goal is modelled but nothing is proved about it; the debugging files in /tmp are not modelled."
  },
  {
   "property": "C39",
   "status": "proved",
   "theorems": [
    "Slugs.Props.C31_terminates",
    "Slugs.Props.C31_system_trace",
    "Slugs.Props.C31_environment_table_sound"
   ],
   "note": "Not modelled: variables with @ in their name are shown in groups; the layout of the table; the debugging files in /tmp."
  },
  {
   "property": "C40",
   "status": "proved",
   "theorems": [
    "Slugs.Props.C30_terminates",
    "Slugs.Props.C30_starting_point"
   ],
   "note": ""
  },
  {
   "property": "C41",
   "status": "proved",
   "theorems": [
    "Slugs.Props.C41_terminates",
    "Slugs.Props.C41_table",
    "Slugs.Props.C41_last_row"
   ],
   "note": ""
  },
  {
   "property": "C42",
   "status": "partial",
   "theorems": [
    "Slugs.Props.C42_nonstrict_standard",
    "Slugs.Props.C42_nonstrict_robotics_partial",
    "Slugs.Props.C42_nonstrict_robotics_violated"
   ],
   "note": "Exact in the standard semantics. In the robotics semantics the line is only sound: it is missing if the system cannot force a violation of the assumptions from some initial position, because the extra bit of the construction is not initialised; a file shows this."
  },
  {
   "property": "C43",
   "status": "partial",
   "theorems": [
    "Slugs.Props.C43_system_rounds",
    "Slugs.Props.C43_environment_rounds_partial",
    "Slugs.Props.C43_environment_rounds_violated"
   ],
   "note": "Exact for the system. For the environment the number is right if every input has an allowed initial output; otherwise it can be too small and the remark about initial positions wrong, which a file shows."
  },
  {
   "property": "C44",
   "status": "proved",
   "theorems": [
    "Slugs.Props.C44_terminates",
    "Slugs.Props.C44_realizable"
   ],
   "note": ""
  },
  {
   "property": "C45",
   "status": "partial",
   "theorems": [
    "Slugs.Props.C45_weaker_partial",
    "Slugs.Props.C45_weaker_violated"
   ],
   "note": "All printed clauses but at most one follow from the assumptions, and a single printed clause always does. In general the last clause need not follow: a file shows that it can be the empty clause, which forbids all environment moves."
  },
  {
   "property": "C46",
   "status": "partial",
   "theorems": [
    "Slugs.Props.C46_minimal_partial",
    "Slugs.Props.C46_needed",
    "Slugs.Props.C46_minimal_violated"
   ],
   "note": "Holds for the clauses before literals are removed from them; after that, a printed clause can be superfluous, which a file shows. Clauses are printed exactly if the specification needs safety assumptions."
  },
  {
   "property": "C47",
   "status": "proved",
   "theorems": [
    "Slugs.Props.C47_session",
    "Slugs.Props.C47_verdict",
    "Slugs.Props.C47_play_safe",
    "Slugs.Props.C47_answer",
    "Slugs.Props.C47_start"
   ],
   "note": ""
  },
  {
   "property": "C48",
   "status": "proved",
   "theorems": [
    "Slugs.Props.C48_play_live"
   ],
   "note": ""
  },
  {
   "property": "C49",
   "status": "proved",
   "theorems": [
    "Slugs.Props.C49_completeInit"
   ],
   "note": ""
  },
  {
   "property": "C50",
   "status": "partial",
   "theorems": [
    "Slugs.Props.C50_strategyTransition_partial",
    "Slugs.Props.C50_numbers_partial",
    "Slugs.Props.C50_numbers_violated"
   ],
   "note": "Everything but the numbers is right in general. The numbers are right if all values of the first position are given and the liveness properties are not satisfied by a single transition only; in general they are not, which a session shows."
  },
  {
   "property": "C51",
   "status": "partial",
   "theorems": [
    "Slugs.Props.C51_transitions_partial",
    "Slugs.Props.C51_move_violated"
   ],
   "note": "Holds for CHECKTRANS, and for MOVE as long as the current position is known, which is not the case after MOVE with other numbers than 0 and 1: a session shows that the next step then violates a safety guarantee."
  },
  {
   "property": "C52",
   "status": "partial",
   "theorems": [
    "Slugs.Props.C52_goal_partial",
    "Slugs.Props.C52_goal_violated"
   ],
   "note": "Holds for XMAKETRANS and XMAKETRANSRANDOM, and for XGETINIT before the first use of these. XGETINIT does not reset the goal although it prints 0: a session shows that the next step does not belong to any way of pursuing goal 0."
  },
  {
   "property": "C53",
   "status": "partial",
   "theorems": [
    "Slugs.Props.C53_requests_partial",
    "Slugs.Props.C53_checkTrans_violated",
    "Slugs.Props.C53_move_violated",
    "Slugs.Props.C53_hang",
    "Slugs.Props.C53_outOfRange"
   ],
   "note": "Proved for all requests but MOVE; XMAKETRANS and XMAKETRANSRANDOM need a realizable specification, and CHECKTRANS a realizable one or not more guarantees than assumptions: otherwise the behaviour of CHECKTRANS is undefined, which a session shows. After MOVE has been refused, the rest of the request is taken for a command. Requests that are not well-formed can make the program wait forever or access memory out of bounds."
  },
  {
   "property": "C54",
   "status": "proved",
   "theorems": [
    "Slugs.Props.C54_lost"
   ],
   "note": ""
  },
  {
   "property": "C55",
   "status": "proved",
   "theorems": [
    "Slugs.Props.C55_accepted_denotes",
    "Slugs.Props.C55_proper_accepted",
    "Slugs.Props.C55_verdict",
    "Slugs.Props.C55_printed_is_right",
    "Slugs.Props.C55_stricter"
   ],
   "note": ""
  },
  {
   "property": "C56",
   "status": "proved",
   "theorems": [
    "Slugs.Props.C56_complete_and_safe",
    "Slugs.Props.C56_initial_states",
    "Slugs.Props.C56_live",
    "Slugs.Props.C56_terminates",
    "Slugs.Props.C56_permissive"
   ],
   "note": ""
  },
  {
   "property": "C57",
   "status": "partial",
   "theorems": [
    "Slugs.Props.C57_parser_exact",
    "Slugs.Props.C57_unambiguous",
    "Slugs.Props.C57_accepted_iff",
    "Slugs.Props.C57_one_meaning",
    "Slugs.Props.C57_ends_partial",
    "Slugs.Props.C57_negative_bound_never_ends",
    "Slugs.Props.C57_documented_operators_refused"
   ],
   "note": "Everything but the end for variables with negative lower bounds, for which it is false."
  },
  {
   "property": "C58",
   "status": "proved",
   "theorems": [
    "Slugs.Props.C58_translation_right",
    "Slugs.Props.C58_translation_read"
   ],
   "note": ""
  },
  {
   "property": "C59",
   "status": "proved",
   "theorems": [
    "Slugs.Props.C59_structured_verdict",
    "Slugs.Props.C59_declarations",
    "Slugs.Props.C59_bracketed_constraint_lost",
    "Slugs.Props.C59_text_before_header_lost"
   ],
   "note": "Proper files are defined in Spec/StructuredFile.lean; the last two theorems are about files that are not."
  },
  {
   "property": "C60",
   "status": "partial",
   "theorems": [
    "Slugs.Props.C60_terminates",
    "Slugs.Props.C60_no_start",
    "Slugs.Props.C60_run_partial",
    "Slugs.Props.C60_no_false_loss",
    "Slugs.Props.C60_reads_past_end",
    "Slugs.Props.C60_false_loss",
    "Slugs.Props.C60_wrong_mark"
   ],
   "note": "The table is a run of the game with the stated values and numbers. Not true: that marks refer to the step shown (C60_wrong_mark) and that Sys.Loses is not printed (C60_false_loss; C60_no_false_loss gives a condition under which it is not). Every table is printed after reads outside of vectors (C60_reads_past_end). Names with @ are excluded."
  },
  {
   "property": "C61",
   "status": "partial",
   "theorems": [
    "Slugs.Props.C61_printed",
    "Slugs.Props.C61_json_partial",
    "Slugs.Props.C61_json_determines",
    "Slugs.Props.C61_text_determines",
    "Slugs.Props.C61_counter_determines",
    "Slugs.Props.C61_not_json",
    "Slugs.Props.C61_wrong_name"
   ],
   "note": "The text formats are fully covered. For JSON the names must contain no quotation marks, backslashes and control characters; without this it is false (C61_not_json, C61_wrong_name). Characters of the file are taken for characters of the JSON text, i.e. the file is assumed to be UTF-8."
  },
  {
   "property": "C62",
   "status": "partial",
   "theorems": [
    "Slugs.Props.C62_proper_denotes",
    "Slugs.Props.C62_motion_verdict_partial",
    "Slugs.Props.C62_printed_is_right_partial",
    "Slugs.Props.C62_initial_assumption_defect",
    "Slugs.Props.C62_other_output_defect",
    "Slugs.Props.C62_region_defect",
    "Slugs.Props.C62_safety_assumption_defect"
   ],
   "note": "Proved for files without other outputs in which initial assumptions are about inputs and safety assumptions about the current position and the next inputs; otherwise false (the defect theorems). BDD files are modelled by the predicates they store; files that mention further variables are not covered. Memory is unlimited."
  },
  {
   "property": "C63",
   "status": "proved",
   "theorems": [
    "Slugs.Props.C63_printed_estimator",
    "Slugs.Props.C63_warnings",
    "Slugs.Props.C63_proper_reports",
    "Slugs.Props.C63_reports_denote",
    "Slugs.Props.C63_guarantees_hold",
    "Slugs.Props.C63_needs_observations_only",
    "Slugs.Props.C63_most_permissive",
    "Slugs.Props.C63_optimal_exists",
    "Slugs.Props.C63_bounds_determined",
    "Slugs.Props.C63_never_stuck",
    "Slugs.Props.C63_environment_never_stuck"
   ],
   "note": "Declared names without blanks that are not operators; printed text shorter than 2^32 characters. Reordering while a formula is printed, overflow of part numbers, the pictures in /tmp and the analysis of names with @ after the output are not modelled. Memory is unlimited."
  },
  {
   "property": "C64",
   "status": "proved",
   "theorems": [
    "Slugs.Props.C64_script_verdict",
    "Slugs.Props.C64_minimum",
    "Slugs.Props.C64_maximum",
    "Slugs.Props.C64_reported_is_realizable",
    "Slugs.Props.C64_few_calls",
    "Slugs.Props.C64_pareto_front",
    "Slugs.Props.C64_errors_loop"
   ],
   "note": "For ranges that are not empty and scripts that always have a result and give the same result for the same value; C64_errors_loop says what happens with several parameters if there is never a result (the search does not end). Reading the command line arguments and the texts of messages are not modelled."
  },
  {
   "property": "C65",
   "status": "partial",
   "theorems": [
    "Slugs.Props.C65_minimal_core_partial",
    "Slugs.Props.C65_tool_fails"
   ],
   "note": "The claim is false of the tool as it is: it calls slugs with the option --onlyRealizability, which slugs does not know, so that it fails for every file with a safety or liveness guarantee (C65_tool_fails). C65_minimal_core_partial proves the claim for the tool with calls of slugs without that option. Missing: nothing else; a file name without a dot and concurrent use of /tmp/core.slugsin are not modelled."
  },
  {
   "property": "C66",
   "status": "partial",
   "theorems": [
    "Slugs.Props.C66_decoded_partial",
    "Slugs.Props.C66_no_variables",
    "Slugs.Props.C66_recovery_out_of_bounds"
   ],
   "note": "The decoder raises an exception if no variable has more than one value (C66_no_variables), and with --simpleRecovery values out of bounds are listed (C66_recovery_out_of_bounds); C66_decoded_partial proves the claim for all other cases. Missing: counterstrategies and JSON output as input of the decoder."
  },
  {
   "property": "C67",
   "status": "partial",
   "theorems": [
    "Slugs.Props.C67_graph_partial",
    "Slugs.Props.C67_fails",
    "Slugs.Props.C67_no_variables",
    "Slugs.Props.C67_colon"
   ],
   "note": "The tool fails if some state has no successor (C67_fails) or if there are no variables (C67_no_variables), and shows other values if a name contains a colon (C67_colon). C67_graph_partial proves the claim for all other strategies whose names have no blanks, commas, colons and <. Missing: those names, and counterstrategies."
  },
  {
   "property": "C68",
   "status": "proved",
   "theorems": [
    "Slugs.Props.C68_stuck_report",
    "Slugs.Props.C68_stuck_output",
    "Slugs.Props.C68_stuck_input"
   ],
   "note": ""
  },
  {
   "property": "C69",
   "status": "partial",
   "theorems": [
    "Slugs.Props.C69_circuit",
    "Slugs.Props.C69_realizable_partial",
    "Slugs.Props.C69_same_verdict_partial",
    "Slugs.Props.C69_runs",
    "Slugs.Props.C69_liveness",
    "Slugs.Props.C69_controllable_input",
    "Slugs.Props.C69_two_blanks"
   ],
   "note": "The full claim is false: an input whose name starts with controllable_ is chosen by the controller of the circuit (C69_controllable_input), and formulas with two blanks in a row lead to an exception (C69_two_blanks)."
  },
  {
   "property": "C70",
   "status": "proved",
   "theorems": [
    "Slugs.Props.C70_any_number",
    "Slugs.Props.C70_all_below",
    "Slugs.Props.C70_unrealizable",
    "Slugs.Props.C70_meaning"
   ],
   "note": ""
  },
  {
   "property": "C71",
   "status": "proved",
   "theorems": [
    "Slugs.Props.C71_levels",
    "Slugs.Props.C71_all_below",
    "Slugs.Props.C71_meaning"
   ],
   "note": ""
  },
  {
   "property": "C72",
   "status": "proved",
   "theorems": [
    "Slugs.Props.C72_verdict",
    "Slugs.Props.C72_proper",
    "Slugs.Props.C72_ends"
   ],
   "note": "C72_ends assumes an arithmetic without overflow (Doubles.Lawful): sums and products are monotone, and finite for finite numbers."
  },
  {
   "property": "C73",
   "status": "partial",
   "theorems": [
    "Slugs.Props.C73_strategy_partial",
    "Slugs.Props.C73_winning_partial",
    "Slugs.Props.C73_stuck"
   ],
   "note": "The full claim does not hold: C73_stuck is a specification for which the printed strategy does not answer every move and has runs that never reach the goal."
  },
  {
   "property": "C74",
   "status": "partial",
   "theorems": [
    "Slugs.Props.C74_checks_partial",
    "Slugs.Props.C74_numbered",
    "Slugs.Props.C74_strategies_pass",
    "Slugs.Props.C74_several_successors",
    "Slugs.Props.C74_initial_not_checked",
    "Slugs.Props.C74_xor",
    "Slugs.Props.C74_no_variables",
    "Slugs.Props.C74_numbers",
    "Slugs.Props.C74_no_states"
   ],
   "note": "The full claim does not hold: an automaton with several successors for an input can pass although it has a bad run, missing initial states are not noticed, and there is no usable file for constraints with exclusive or, without variables, with names of integer bits, or for empty strategies."
  },
  {
   "property": "C75",
   "status": "partial",
   "theorems": [
    "Slugs.Props.C75_translated_partial",
    "Slugs.Props.C75_accepted",
    "Slugs.Props.C75_strategies_partial",
    "Slugs.Props.C75_zero"
   ],
   "note": "The full claim does not hold: comparisons with 0 are translated like comparisons with 1."
  },
  {
   "property": "C76",
   "status": "partial",
   "theorems": [
    "Slugs.Props.C76_translated_partial",
    "Slugs.Props.C76_accepted",
    "Slugs.Props.C76_format",
    "Slugs.Props.C76_strategies_partial",
    "Slugs.Props.C76_next_names",
    "Slugs.Props.C76_line_breaks"
   ],
   "note": "The full claim does not hold: names that start with next, TRUE or FALSE are misread, and line breaks between words are dropped."
  },
  {
   "property": "C77",
   "status": "proved",
   "theorems": [
    "Slugs.Props.C77_written",
    "Slugs.Props.C77_readable",
    "Slugs.Props.C77_never_blocks",
    "Slugs.Props.C77_live",
    "Slugs.Props.C77_assumptions_can_be_fulfilled"
   ],
   "note": "Up to writing the BDD to the file."
  },
  {
   "property": "C78",
   "status": "proved",
   "theorems": [
    "Slugs.Props.C78_written",
    "Slugs.Props.C78_readable",
    "Slugs.Props.C78_never_blocks",
    "Slugs.Props.C78_live"
   ],
   "note": "Up to writing the BDD to the file."
  },
  {
   "property": "C79",
   "status": "proved",
   "theorems": [
    "Slugs.Props.C79_goal_steps_listed",
    "Slugs.Props.C79_maximal",
    "Slugs.Props.C79_every_winning_strategy_included",
    "Slugs.Props.C79_not_maximal_with_goals"
   ],
   "note": "C79_not_maximal_with_goals shows with a concrete file that the condition (no liveness guarantees) is needed, as the comment in the code says."
  },
  {
   "property": "C80",
   "status": "proved",
   "theorems": [
    "Slugs.Props.C80_line_meaning",
    "Slugs.Props.C80_every_reading",
    "Slugs.Props.C80_brackets_refused",
    "Slugs.Props.C80_own_output_refused",
    "Slugs.Props.C80_next_refused",
    "Slugs.Props.C80_primed_name_needed"
   ],
   "note": "Lines that are refused (an exception) are outside of the claim; C80_brackets_refused, C80_own_output_refused and C80_next_refused show which ones are, some against a comment in the code."
  },
  {
   "property": "C81",
   "status": "proved",
   "theorems": [
    "Slugs.Props.C81_file",
    "Slugs.Props.C81_verdict"
   ],
   "note": "Files for which the tool raises an exception are outside of the claim (see C80 for formulas that it refuses)."
  },
  {
   "property": "C82",
   "status": "partial",
   "theorems": [
    "Slugs.Props.C82_report_partial",
    "Slugs.Props.C82_positions_partial",
    "Slugs.Props.C82_copy",
    "Slugs.Props.C82_shown_unique",
    "Slugs.Props.C82_mark_miscounted",
    "Slugs.Props.C82_mark_no_report",
    "Slugs.Props.C82_missing_number"
   ],
   "note": "Violated in one number, which makes the proved theorems partial: the number of initial inputs that force the system to lose can be missing (nan, the defect of C36); CountsLosing says exactly when, C82_missing_number is a case. Everything else is proved for files without the mark that the compiler uses (## Variable limits) and without exotic white space; C82_mark_miscounted and C82_mark_no_report show that the first condition is needed."
  },
  {
   "property": "C83",
   "status": "proved",
   "theorems": [
    "Slugs.Props.C83_generated",
    "Slugs.Props.C83_coverage",
    "Slugs.Props.C83_round",
    "Slugs.Props.C83_no_false_alarm",
    "Slugs.Props.C83_loop"
   ],
   "note": ""
  },
  {
   "property": "C84",
   "status": "partial",
   "theorems": [
    "Slugs.Props.C84_generated_partial",
    "Slugs.Props.C84_coverage",
    "Slugs.Props.C84_aborts"
   ],
   "note": "Violated: a blank is missing on the command line between --explicitStrategy and the name of the file, so slugs always refuses its arguments and the first round is aborted, whatever the random choices and options (C84_aborts). Proved: what is generated, its translation and its meaning, and that everything of this shape can be generated. What follows in the script when slugs succeeds cannot be reached and is not modelled."
  },
  {
   "property": "C85",
   "status": "partial",
   "theorems": [
    "Slugs.Props.C85_play_partial",
    "Slugs.Props.C85_no_crash",
    "Slugs.Props.C85_requests",
    "Slugs.Props.C85_bounds",
    "Slugs.Props.C85_table",
    "Slugs.Props.C85_typed",
    "Slugs.Props.C85_backspace",
    "Slugs.Props.C85_keys",
    "Slugs.Props.C85_kept",
    "Slugs.Props.C85_play_violated"
   ],
   "note": "Violated: when a value is outside of its bounds and an arrow key is pressed, the simulator replaces it by the nearest bound and removes the flag without asking slugs again; with the right arrow key a next column is opened, and the column without a flag need not be allowed (C85_play_violated). Proved: the claim for all other sequences of keys, no exceptions while the table is shown, well-formed requests, bounds, what the keys do, and the table made from the names of the propositions. Not modelled: what is drawn, except for the columns, and the text of the requests."
  },
  {
   "property": "C86",
   "status": "proved",
   "theorems": [
    "Slugs.Props.C86_game",
    "Slugs.Props.C86_verdict"
   ],
   "note": "The lines of the compiled file must not be longer than slugs can handle (as in C59). The name of the file and the calls of other programs are not modelled."
  },
  {
   "property": "C87",
   "status": "proved",
   "theorems": [
    "Slugs.Props.C87_game",
    "Slugs.Props.C87_verdict"
   ],
   "note": "The lines of the compiled file must not be longer than slugs can handle (as in C59). The name of the file and the calls of other programs are not modelled."
  },
  {
   "property": "C88",
   "status": "proved",
   "theorems": [
    "Slugs.Props.C88_done",
    "Slugs.Props.C88_failed",
    "Slugs.Props.C88_refused"
   ],
   "note": "Lines of compiled files must not be longer than slugs can handle (as in C59). The search for the folder, names of files and texts of messages are not modelled."
  },
  {
   "property": "C89",
   "status": "proved",
   "theorems": [
    "Slugs.Props.C89_game",
    "Slugs.Props.C89_verdict",
    "Slugs.Props.manages_two",
    "Slugs.Props.loses_busy"
   ],
   "note": "Lines of compiled files must not be longer than slugs can handle (as in C59). Names of files and the translation to AIGER are not part of this claim. The assembly line is the one of the files: while the belt moves, arms work on the objects that arrive (C90)."
  },
  {
   "property": "C90",
   "status": "partial",
   "theorems": [
    "Slugs.Props.C90_push_partial",
    "Slugs.Props.C90_violated"
   ],
   "note": "Violated: while the belt moves, the tasks are applied after the push, to the objects that come to the places of the arms. C90_violated is a play from the start in which an arm performs a task on an object and the object is pushed on without it; C90_push_partial says what holds for all transitions."
  },
  {
   "property": "C91",
   "status": "proved",
   "theorems": [
    "Slugs.Props.C91_cinderella",
    "Slugs.Props.C91_evasion",
    "Slugs.Props.C91_factory",
    "Slugs.Props.manages_mono",
    "Slugs.Props.cinderellaWins_mono"
   ],
   "note": "Lines of compiled files must not be longer than slugs can handle (as in C59). For the moving obstacle, grids of different sizes are not compared; for the buckets, numbers of buckets are not compared."
  },
  {
   "property": "C92",
   "status": "proved",
   "theorems": [
    "Slugs.Props.C92_throughput",
    "Slugs.Props.C92_no_errors",
    "Slugs.Props.C92_errors",
    "Slugs.Props.loses_throughput",
    "Slugs.Props.manages_zero_iff",
    "Slugs.Props.manages_all_iff",
    "Slugs.Props.loses_short"
   ],
   "note": "Lines of compiled files must not be longer than slugs can handle (as in C59). For m = 2k+1 and a positive number of errors, the exact limit is in C93."
  },
  {
   "property": "C93",
   "status": "proved",
   "theorems": [
    "Slugs.Props.C93_verdict",
    "Slugs.Props.C93_errors",
    "Slugs.Props.C93_realizable",
    "Slugs.Props.manages_iff",
    "Slugs.Props.manages_errors_iff"
   ],
   "note": "Lines of compiled files must not be longer than slugs can handle (as in C59). The row with the unknown verdict is an example beside manages_errors."
  }
 ]
}