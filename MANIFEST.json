{
 "claims": [
  {
   "property": "C01",
   "status": "proved",
   "theorems": [
    "GS.Props.C01_partition"
   ],
   "note": ""
  },
  {
   "property": "C02",
   "status": "proved",
   "theorems": [
    "GS.Props.C02_senders_first",
    "GS.Props.C02_no_edge_inside"
   ],
   "note": ""
  },
  {
   "property": "C03",
   "status": "proved",
   "theorems": [
    "GS.Props.C03_longest_chain",
    "GS.Props.C03_positions"
   ],
   "note": ""
  },
  {
   "property": "C04",
   "status": "proved",
   "theorems": [
    "GS.Props.C04_cycle_rejected",
    "GS.Props.C04_rejected_iff",
    "GS.Props.C04_life"
   ],
   "note": "The constructor is a total function in the model (Sys.new)."
  },
  {
   "property": "C05",
   "status": "proved",
   "theorems": [
    "GS.Props.C05_presentation"
   ],
   "note": ""
  },
  {
   "property": "C06",
   "status": "proved",
   "theorems": [
    "GS.Props.C06_one_layer_in_order",
    "GS.Props.C06_senders_before_receivers"
   ],
   "note": ""
  },
  {
   "property": "C07",
   "status": "proved",
   "theorems": [
    "GS.Props.C07_sound"
   ],
   "note": ""
  },
  {
   "property": "C08",
   "status": "proved",
   "theorems": [
    "GS.Props.C08_maximal",
    "GS.Props.C08_maximal_stateless",
    "GS.Props.C08_choice_ends"
   ],
   "note": "For conditions without an NWhen the statement is about the state in which the set is yielded; in general it is about the final view and the condition objects as they were at the node's last consideration."
  },
  {
   "property": "C09",
   "status": "proved",
   "theorems": [
    "GS.Props.C09_default_schedule",
    "GS.Props.C09_default_id",
    "GS.Props.C09_interleaved",
    "GS.Props.C09_self_edge_never"
   ],
   "note": "C09_self_edge_never shows why self-edges are excluded."
  },
  {
   "property": "C10",
   "status": "proved",
   "theorems": [
    "GS.Props.C10_default_condition",
    "GS.Props.C10_executed_iff"
   ],
   "note": ""
  },
  {
   "property": "C11",
   "status": "proved",
   "theorems": [
    "GS.Props.C11_run_count",
    "GS.Props.C11_pass_count",
    "GS.Props.C11_life_count_one_run",
    "GS.Props.C11_life_count",
    "GS.Props.C11_life_count_new"
   ],
   "note": ""
  },
  {
   "property": "C12",
   "status": "proved",
   "theorems": [
    "GS.Props.C12_every_n_calls",
    "GS.Props.C12_own"
   ],
   "note": ""
  },
  {
   "property": "C13",
   "status": "proved",
   "theorems": [
    "GS.Props.C13_rate",
    "GS.Props.C13_between",
    "GS.Props.C13_between_sets"
   ],
   "note": ""
  },
  {
   "property": "C14",
   "status": "proved",
   "theorems": [
    "GS.Props.C14_never_starts_when_finished",
    "GS.Props.C14_returns_only_when_finished",
    "GS.Props.C14_yielded_sets"
   ],
   "note": ""
  },
  {
   "property": "C15",
   "status": "proved",
   "theorems": [
    "GS.Props.C15_all_have_run",
    "GS.Props.C15_no_proper_prefix"
   ],
   "note": ""
  },
  {
   "property": "C16",
   "status": "proved",
   "theorems": [
    "GS.Props.C16_empty_pass",
    "GS.Props.C16_only_empty_pass"
   ],
   "note": ""
  },
  {
   "property": "C17",
   "status": "proved",
   "theorems": [
    "GS.Props.C17_history",
    "GS.Props.C17_history_new",
    "GS.Props.C17_one_run",
    "GS.Props.C17_unyielded_entry"
   ],
   "note": "For an id without an entry in execution_timestamps in absolute-time mode the code appends a set and raises KeyError before yielding it (C17_unyielded_entry)."
  },
  {
   "property": "C18",
   "status": "proved",
   "theorems": [
    "GS.Props.C18_next_returns",
    "GS.Props.C18_next_returns_absolute",
    "GS.Props.C18_empty_graph_absolute_diverges"
   ],
   "note": "Holds outside absolute time, and in absolute time for a non-empty graph; for an empty graph in absolute time it fails (C18_empty_graph_absolute_diverges)."
  },
  {
   "property": "C19",
   "status": "proved",
   "theorems": [
    "GS.Props.C19_completed_run",
    "GS.Props.C19_time_after",
    "GS.Props.C19_at_yield"
   ],
   "note": ""
  },
  {
   "property": "C20",
   "status": "proved",
   "theorems": [
    "GS.Props.C20_increment",
    "GS.Props.C20_fields",
    "GS.Props.C20_life_rejected",
    "GS.Props.C20_history_increasing"
   ],
   "note": ""
  },
  {
   "property": "C21",
   "status": "proved",
   "theorems": [
    "GS.Props.C21_tree",
    "GS.Props.C21_tree_life",
    "GS.Props.C21_finest_depth",
    "GS.Props.C21_clock_counts",
    "GS.Props.C21_clock_default",
    "GS.Props.C21_clock_negative",
    "GS.Props.C21_clock_not_begun",
    "GS.Props.C21_clock_pass_not_recorded",
    "GS.Props.C21_clock_life"
   ],
   "note": "When the scope is not coarser than the query the code silently counts over LIFE (C21_clock_life)."
  },
  {
   "property": "C22",
   "status": "partial",
   "theorems": [
    "GS.Props.C22_passes",
    "GS.Props.C22_cse_partial",
    "GS.Props.C22_cse_in_pass_raises",
    "GS.Props.C22_environment_state_updates",
    "GS.Props.C22_environment_sequences",
    "GS.Props.C22_unit_ignored",
    "GS.Props.C22_in_run",
    "GS.Props.C22_life"
   ],
   "note": "Proved for all four families at every scale, except consideration-set-execution conditions with time_scale=PASS: there the code raises TimeScaleError (C22_cse_in_pass_raises). C22_unit_ignored records that pass conditions with time_scale=PASS count over the whole life."
  },
  {
   "property": "C23",
   "status": "proved",
   "theorems": [
    "GS.Props.C23_all",
    "GS.Props.C23_all_decided",
    "GS.Props.C23_any",
    "GS.Props.C23_any_decided",
    "GS.Props.C23_not",
    "GS.Props.C23_formula"
   ],
   "note": "All/Any/Not as connectives, left-to-right short-circuit, and the Boolean formula for any nesting."
  },
  {
   "property": "C24",
   "status": "proved",
   "theorems": [
    "GS.Props.C24_first_n",
    "GS.Props.C24_at_most_n",
    "GS.Props.C24_then_false",
    "GS.Props.C24_life"
   ],
   "note": "Per evaluation sequence, and lifted to all runs of a scheduler."
  },
  {
   "property": "C25",
   "status": "proved",
   "theorems": [
    "GS.Props.C25_just_ran",
    "GS.Props.C25_not_just_ran",
    "GS.Props.C25_nothing_yielded",
    "GS.Props.C25_from"
   ],
   "note": "Never satisfied on an empty history: it raises IndexError there (C25_nothing_yielded)."
  },
  {
   "property": "C26",
   "status": "proved",
   "theorems": [
    "GS.Props.C26_before_after",
    "GS.Props.C26_after_call",
    "GS.Props.C26_at",
    "GS.Props.C26_combined",
    "GS.Props.C26_all_have_run",
    "GS.Props.C26_after_stays",
    "GS.Props.C26_after_call_stays",
    "GS.Props.C26_all_have_run_stays",
    "GS.Props.C26_combined_documented"
   ],
   "note": "C26_combined_documented: AfterNCallsCombined is satisfied one call earlier than its documentation says."
  },
  {
   "property": "C27",
   "status": "proved",
   "theorems": [
    "GS.Props.C27_undisturbed",
    "GS.Props.C27_stored"
   ],
   "note": ""
  },
  {
   "property": "C28",
   "status": "partial",
   "theorems": [
    "GS.Props.C28_new_context_partial",
    "GS.Props.C28_copies_default_context",
    "GS.Props.C28_yields_differ",
    "GS.Props.C28_default_id_not_none"
   ],
   "note": "False as stated for the default base_execution_id=None (three witnesses); the partial theorem is the claim for base_execution_id=NotImplemented."
  },
  {
   "property": "C29",
   "status": "proved",
   "theorems": [
    "GS.Props.C29_fork",
    "GS.Props.C29_independent",
    "GS.Props.C29_base_ignored",
    "GS.Props.C29_unknown_base",
    "GS.Props.C29_synced"
   ],
   "note": ""
  },
  {
   "property": "C30",
   "status": "proved",
   "theorems": [
    "GS.Props.C30_zeroed",
    "GS.Props.C30_schedule"
   ],
   "note": ""
  },
  {
   "property": "C31",
   "status": "partial",
   "theorems": [
    "GS.Props.C31_order_partial",
    "GS.Props.C31_follow_partial",
    "GS.Props.C31_default_partial",
    "GS.Props.C31_order_matters",
    "GS.Props.C31_raises"
   ],
   "note": "False as listed: C31_order_matters gives two orders of one set, with BeforeNCalls between its nodes, that yield different first sets. Proved for every graph, every pair of orders, every consumer and every number of steps when the conditions are those OrderFree describes (no restriction on AfterCall/AfterNCalls/AllHaveRun outside Not; BeforeNCalls, AtNCalls, EveryNCalls only on nodes of other sets), in particular for schedulers without conditions. Runs that raise are excepted: C31_raises shows that only one of the two may raise."
  },
  {
   "property": "C32",
   "status": "partial",
   "theorems": [
    "GS.Props.C32_composition_partial",
    "GS.Props.C32_other_owner"
   ],
   "note": "Every sequence of additions, bulk additions, removals and reads without exceptions, arbitrary conditions (custom ones included), both modes; assumes that each condition object is used for one owner. C32_other_owner proves that the unrestricted claim is false of the code."
  },
  {
   "property": "C33",
   "status": "proved",
   "theorems": [
    "GS.Props.C33_undo",
    "GS.Props.C33_reads"
   ],
   "note": "No assumption on owners or on what was removed or read before."
  },
  {
   "property": "C34",
   "status": "partial",
   "theorems": [
    "GS.Props.C34_rejected_partial",
    "GS.Props.C34_after_removal",
    "GS.Props.C34_bulk"
   ],
   "note": "Proved when the graph was read since the last removal. C34_after_removal and C34_bulk prove that the full claim is false of the code (scheduler.py:1087-1115 is not exception safe)."
  },
  {
   "property": "C35",
   "status": "proved",
   "theorems": [
    "GS.Props.C35_add",
    "GS.Props.C35_remove",
    "GS.Props.C35_undo"
   ],
   "note": "After any exception-free history of the scheduler; equal or unknown nodes raise ConditionError."
  },
  {
   "property": "C36",
   "status": "partial",
   "theorems": [
    "GS.Props.C36_before_partial",
    "GS.Props.C36_unchanged",
    "GS.Props.C36_edge_lost"
   ],
   "note": "Missing: owner_senders=KEEP together with a subject_senders=REPLACE, for which C36_edge_lost proves that the required edge is lost (shared set object)."
  },
  {
   "property": "C37",
   "status": "proved",
   "theorems": [
    "GS.Props.C37_after",
    "GS.Props.C36_unchanged"
   ],
   "note": ""
  },
  {
   "property": "C38",
   "status": "proved",
   "theorems": [
    "GS.Props.C38_with",
    "GS.Props.C36_unchanged",
    "GS.Props.C38_self_edge"
   ],
   "note": "Same senders and same consideration set, for graphs without self-edges at owner and subject. C38_self_edge shows that the proviso is needed: an owner with a self-edge ends up in another consideration set, with the default options."
  },
  {
   "property": "C39",
   "status": "proved",
   "theorems": [
    "GS.Props.C39_argument",
    "GS.Props.C39_locality"
   ],
   "note": "Argument may share set objects between nodes."
  },
  {
   "property": "C40",
   "status": "partial",
   "theorems": [
    "GS.Props.C40_operations",
    "GS.Props.C40_rejected",
    "GS.Props.C40_conditions_partial",
    "GS.Props.C40_shared"
   ],
   "note": "The operations step is covered completely (C40_operations), and so is when modify_graph raises (C40_rejected). For whole conditions BeforeNodes with owner_senders=KEEP and subject_senders=REPLACE is missing; C40_shared proves that the claim is false there."
  },
  {
   "property": "C41",
   "status": "proved",
   "theorems": [
    "GS.Props.C41_paths",
    "GS.Props.C41_only_adds"
   ],
   "note": ""
  },
  {
   "property": "C42",
   "status": "partial",
   "theorems": [
    "GS.Props.C42_terminates",
    "GS.Props.C42_errors",
    "GS.Props.C42_pruning_partial",
    "GS.Props.C42_shared"
   ],
   "note": "Missing: required edges of BeforeNodes with owner_senders=KEEP and subject_senders=REPLACE (C42_shared proves that the claim is false there if removal of new self-edges is off)."
  },
  {
   "property": "C43",
   "status": "proved",
   "theorems": [
    "GS.Props.C43_additions",
    "GS.Props.C43_one_call",
    "GS.Props.C43_view",
    "GS.Props.C43_owner",
    "GS.Props.C43_setitem_structural"
   ],
   "note": "Single, bulk and assignment, failing calls included."
  },
  {
   "property": "C44",
   "status": "partial",
   "theorems": [
    "GS.Props.C44_structural_partial",
    "GS.Props.C44_basic_partial",
    "GS.Props.C44_owner_basic_partial",
    "GS.Props.C44_owner_nothing",
    "GS.Props.C44_ambiguous",
    "GS.Props.C44_ownerless",
    "GS.Props.C44_absent_partial",
    "GS.Props.C44_owner_returns_none",
    "GS.Props.C44_owner_structural_raises",
    "GS.Props.C44_absent_returned"
   ],
   "note": "The last three prove that the claim is false of the code as to the returned value, and for an owner whose only condition is structural."
  },
  {
   "property": "C45",
   "status": "proved",
   "theorems": [
    "GS.Props.C45_in_force",
    "GS.Props.C45_members_accepted",
    "GS.Props.C45_rejected"
   ],
   "note": "Arguments are dicts (the TypeError for other objects is not modelled)."
  },
  {
   "property": "C46",
   "status": "proved",
   "theorems": [
    "GS.Props.C46_receivers",
    "GS.Props.C46_to_networkx",
    "GS.Props.C46_round_trip",
    "GS.Props.C46_clone"
   ],
   "note": ""
  },
  {
   "property": "C47",
   "status": "proved",
   "theorems": [
    "GS.Props.C47_reachability",
    "GS.Props.C47_converse"
   ],
   "note": ""
  },
  {
   "property": "C48",
   "status": "partial",
   "theorems": [
    "GS.Props.C48_every_r_partial",
    "GS.Props.C48_every_r",
    "GS.Props.C48_first",
    "GS.Props.C48_cut"
   ],
   "note": "False as stated if a termination condition on passes cuts a pass short without ending the run (C48_cut). Proved if no pass is cut short, which holds for all termination conditions on times, calls and finished nodes (C48_every_r)."
  },
  {
   "property": "C49",
   "status": "proved",
   "theorems": [
    "GS.Props.C49_every_set",
    "GS.Props.C49_stamps",
    "GS.Props.C49_times",
    "GS.Props.C49_pass",
    "GS.Props.C49_never_decreases"
   ],
   "note": ""
  },
  {
   "property": "C50",
   "status": "proved",
   "theorems": [
    "GS.Props.C50_times",
    "GS.Props.C50_multiples",
    "GS.Props.C50_exclusive"
   ],
   "note": "C50_exclusive: exclusive start times are not covered."
  },
  {
   "property": "C51",
   "status": "partial",
   "theorems": [
    "GS.Props.C51_not_after",
    "GS.Props.C51_until_partial",
    "GS.Props.C51_starts_partial",
    "GS.Props.C51_nothing",
    "GS.Props.C51_plain"
   ],
   "note": "False if the inclusive TimeTermination is the only absolute condition: the clock jumps to t and nothing is executed (C51_nothing for all such runs, C51_plain). Proved otherwise."
  },
  {
   "property": "C52",
   "status": "proved",
   "theorems": [
    "GS.Props.C52_call",
    "GS.Props.C52_whileNot",
    "GS.Props.C52_collisions"
   ],
   "note": "Keywords that are names of attributes of the condition object (args, kwargs, func, owner, ...) are not modelled; the cache of signatures is left out."
  },
  {
   "property": "C53",
   "status": "proved",
   "theorems": [
    "GS.Props.C53_any_function",
    "GS.Props.C53_graph_functions",
    "GS.Props.C53_collision_stale"
   ],
   "note": "get_simple_cycles (networkx) is covered by the general theorem C53_any_function. C53_collision_stale shows that the proviso on hashes is needed."
  },
  {
   "property": "C54",
   "status": "partial",
   "theorems": [
    "GS.Props.C54_first_run_partial",
    "GS.Props.C54_frozen",
    "GS.Props.C54_stale"
   ],
   "note": "False as stated: implicit conditions are made explicit by the first run and never refreshed (C54_frozen for every graph change, C54_stale a concrete scheduler). Proved for the first run."
  },
  {
   "property": "C55",
   "status": "partial",
   "theorems": [
    "GS.Props.C55_unshared_partial",
    "GS.Props.C55_shared_plain",
    "GS.Props.C55_shared",
    "GS.Props.C55_shared_nwhen"
   ],
   "note": "False as stated for an object shared between nodes (C55_shared, C55_shared_nwhen). Proved for objects that are not shared, and for shared objects if the other node's condition looks neither at its owner nor at its own history."
  },
  {
   "property": "C56",
   "status": "proved",
   "theorems": [
    "GS.Props.C56_indices",
    "GS.Props.C56_any_mode"
   ],
   "note": "C56_any_mode has the hypothesis of C32 that each structural condition object is used for one owner."
  },
  {
   "property": "C57",
   "status": "proved",
   "theorems": [
    "GS.Props.C57_in_order",
    "GS.Props.C57_all_sets"
   ],
   "note": ""
  },
  {
   "property": "C58",
   "status": "partial",
   "theorems": [
    "GS.Props.C58_constructor_partial",
    "GS.Props.C58_names_raise"
   ],
   "note": "False in run() and in assignments: C58_names_raise proves that they raise RuntimeError (the dict grows while it is iterated over). In the constructor the two time scales that end runs may be named."
  },
  {
   "property": "C59",
   "status": "partial",
   "theorems": [
    "GS.Props.C59_exactly",
    "GS.Props.C59_surplus_partial",
    "GS.Props.C59_surplus_keyword_only",
    "GS.Props.C59_surplus_collides",
    "GS.Props.C59_positional_only",
    "GS.Props.C59_default_dropped"
   ],
   "note": "C59_exactly says for every signature when surplus arguments do no harm. As stated the property is false: for keyword-only parameters without defaults (C59_surplus_keyword_only), for surplus positional arguments when a later parameter is supplied by keyword (C59_surplus_collides), and for positional-only parameters (C59_positional_only)."
  },
  {
   "property": "C60",
   "status": "proved",
   "theorems": [
    "GS.Props.C60_when",
    "GS.Props.C60_when_exact",
    "GS.Props.C60_every"
   ],
   "note": ""
  },
  {
   "property": "C61",
   "status": "proved",
   "theorems": [
    "GS.Props.C61_exactly",
    "GS.Props.C61_between_passes",
    "GS.Props.C61_default_passes"
   ],
   "note": ""
  },
  {
   "property": "C62",
   "status": "proved",
   "theorems": [
    "GS.Props.C62_when",
    "GS.Props.C62_counts",
    "GS.Props.C62_passes",
    "GS.Props.C62_returns"
   ],
   "note": ""
  },
  {
   "property": "C63",
   "status": "proved",
   "theorems": [
    "GS.Props.C63_one",
    "GS.Props.C63_many",
    "GS.Props.C63_equivalent",
    "GS.Props.C63_in_run"
   ],
   "note": ""
  },
  {
   "property": "C64",
   "status": "proved",
   "theorems": [
    "GS.Props.C64_constructor",
    "GS.Props.C64_value",
    "GS.Props.C64_warning",
    "GS.Props.C64_complement",
    "GS.Props.C64_tolerance",
    "GS.Props.C64_in_run"
   ],
   "note": "Numbers are rationals: no nan, inf or rounding. Index arguments that can be iterated over only once are not modelled."
  },
  {
   "property": "C65",
   "status": "proved",
   "theorems": [
    "GS.Props.C65_starts",
    "GS.Props.C65_in_run"
   ],
   "note": ""
  },
  {
   "property": "C66",
   "status": "proved",
   "theorems": [
    "GS.Props.C66_decided"
   ],
   "note": ""
  },
  {
   "property": "C67",
   "status": "partial",
   "theorems": [
    "GS.Props.C67_close",
    "GS.Props.C67_exact_partial",
    "GS.Props.C67_whole_partial",
    "GS.Props.C67_spellings",
    "GS.Props.C67_vanishes"
   ],
   "note": "False as stated: numbers are rounded to eight decimal places, so 1e-9 ms becomes zero (C67_vanishes). Proved for numbers with at most eight decimal places when smaller units divide the written one; the bound on the error holds for all numbers. pint's parser and table of units are parameters."
  },
  {
   "property": "C68",
   "status": "partial",
   "theorems": [
    "GS.Props.C68_order_partial",
    "GS.Props.C68_nothing",
    "GS.Props.C68_open",
    "GS.Props.C68_texts"
   ],
   "note": "False for two texts, which are compared letter by letter (C68_texts). Proved for numbers and for quantities."
  },
  {
   "property": "C69",
   "status": "partial",
   "theorems": [
    "GS.Props.C69_common_partial",
    "GS.Props.C69_unit",
    "GS.Props.C69_half_seconds"
   ],
   "note": "False if the registry knows units that are not powers of ten of each other (C69_half_seconds); pint's table of units is not part of /repo. Proved for whole numbers of decimal units."
  },
  {
   "property": "C70",
   "status": "proved",
   "theorems": [
    "GS.Props.C70_schedule",
    "GS.Props.C70_equivalence",
    "GS.Props.C70_inside",
    "GS.Props.C70_logic",
    "GS.Props.C70_order",
    "GS.Props.C70_calls",
    "GS.Props.C70_times",
    "GS.Props.C70_durations",
    "GS.Props.C70_finished",
    "GS.Props.C70_not_not_interval"
   ],
   "note": "C70_not_not_interval shows why double negations of conditions on absolute time are excepted."
  },
  {
   "property": "C71",
   "status": "proved",
   "theorems": [
    "GS.Props.C71_until",
    "GS.Props.C71_until_prefix",
    "GS.Props.C71_never_ending",
    "GS.Props.C71_comparable",
    "GS.Props.C71_returned",
    "GS.Props.C71_extra_empty"
   ],
   "note": "C71_extra_empty shows why conditions that look at the current pass are excepted: they can make the run yield an extra empty set."
  },
  {
   "property": "C72",
   "status": "proved",
   "theorems": [
    "GS.Props.C72_part",
    "GS.Props.C72_prefix",
    "GS.Props.C72_graph",
    "GS.Props.C72_just_ran",
    "GS.Props.C72_nwhen_inside"
   ],
   "note": "C72_just_ran shows why JustRan (and conditions on consideration set executions) are excepted: they see sets outside the part. NWhen is covered as the whole condition of a node; C72_nwhen_inside shows why NWhen inside other conditions is excepted: unrelated nodes cause more rounds and use up its quota. Custom functions and WhileNot are covered if they look only at what the outside world shows of the part."
  },
  {
   "property": "C73",
   "status": "proved",
   "theorems": [
    "GS.Props.C73_alias",
    "GS.Props.C73_simple_time",
    "GS.Props.C73_new_time",
    "GS.Props.C73_by_name",
    "GS.Props.C73_conditions",
    "GS.Props.C73_taken",
    "GS.Props.C73_half_set"
   ],
   "note": "Strings are lists of characters with ASCII case; docstrings are not modelled. C73_half_set shows that a name of a member of the enumeration is refused only after the alias has been recorded."
  },
  {
   "property": "C74",
   "status": "proved",
   "theorems": [
    "GS.Props.C74_undo",
    "GS.Props.C74_any_order",
    "GS.Props.C74_one_scale",
    "GS.Props.C74_unknown",
    "GS.Props.C74_second_alias",
    "GS.Props.C74_loses_classes"
   ],
   "note": "C74_second_alias and C74_loses_classes show that both conditions are needed."
  },
  {
   "property": "C75",
   "status": "proved",
   "theorems": [
    "GS.Props.C75_same_schedule",
    "GS.Props.C75_next_run",
    "GS.Props.C75_every_run",
    "GS.Props.C75_new_id",
    "GS.Props.C75_just_ran",
    "GS.Props.C75_abandoned"
   ],
   "note": "For runs that are not in absolute-time mode. C75_just_ran and C75_abandoned show that JustRan must be excluded and that the run before must be complete."
  },
  {
   "property": "C76",
   "status": "proved",
   "theorems": [
    "GS.Props.C76_clock",
    "GS.Props.C76_sequence_conditions",
    "GS.Props.C76_update_conditions",
    "GS.Props.C76_life_conditions",
    "GS.Props.C76_end",
    "GS.Props.C76_run"
   ],
   "note": ""
  },
  {
   "property": "C77",
   "status": "proved",
   "theorems": [
    "GS.Props.C77_senders_first",
    "GS.Props.C77_after",
    "GS.Props.C77_before",
    "GS.Props.C77_with",
    "GS.Props.C77_add_edge",
    "GS.Props.C77_default_schedule"
   ],
   "note": "BeforeNodes without the options of C36_edge_lost; WithNode for nodes without self-edges. The conditions are not changed during the run."
  },
  {
   "property": "C78",
   "status": "proved",
   "theorems": [
    "GS.Props.C78_returned",
    "GS.Props.C78_at_most",
    "GS.Props.C78_passes_reach",
    "GS.Props.C78_ends"
   ],
   "note": ""
  },
  {
   "property": "C79",
   "status": "proved",
   "theorems": [
    "GS.Props.C79_complete_passes",
    "GS.Props.C79_default",
    "GS.Props.C79_default_run",
    "GS.Props.C79_n_passes",
    "GS.Props.C79_n_passes_run"
   ],
   "note": "For runs outside absolute-time mode. The order inside a set is left open, as in the code."
  },
  {
   "property": "C80",
   "status": "proved",
   "theorems": [
    "GS.Props.C80_gone",
    "GS.Props.C80_forgets",
    "GS.Props.C80_base_deleted",
    "GS.Props.C80_nwhen_kept",
    "GS.Props.C27_undisturbed",
    "GS.Props.C29_independent"
   ],
   "note": "Deletion is one of the operations under other ids in C27 and C29."
  },
  {
   "property": "C81",
   "status": "proved",
   "theorems": [
    "GS.Props.C81_prefix",
    "GS.Props.C81_passes",
    "GS.Props.C81_returned",
    "GS.Props.C81_monotone",
    "GS.Props.C81_new",
    "GS.Props.C81_new_described",
    "GS.Props.C81_tells"
   ],
   "note": "Runs in absolute time and others. The kinds of conditions described are listed in DescribedLeaf and DescribedNodes: all kinds, but NWhen only as the whole condition of a node, and of the functions of the user those that look only at the outside world."
  },
  {
   "property": "C82",
   "status": "proved",
   "theorems": [
    "GS.Props.C82_new",
    "GS.Props.C82_add",
    "GS.Props.C82_start",
    "GS.Props.C82_run",
    "GS.Props.C82_yields",
    "GS.Props.C82_isomorphic"
   ],
   "note": "All conditions, all time modes, all consumers. Structural conditions: C112. The names are tied to the model's lists: the order in which the nodes of one set are considered is the order of the renamed list, so a Python set that iterates over the new names in another order is covered by C31 and by C82_isomorphic."
  },
  {
   "property": "C83",
   "status": "proved",
   "theorems": [
    "GS.Props.C83_yields",
    "GS.Props.C83_returned",
    "GS.Props.C83_new",
    "GS.Props.C83_add",
    "GS.Props.C83_order",
    "GS.Props.C83_new_settled",
    "GS.Props.C83_new_before",
    "GS.Props.C83_symmetric"
   ],
   "note": "For conditions that the reference scheduler of C81 describes and sets that are settled (SetsSettled); without that, C31 has a witness in which the order matters. No structural conditions."
  },
  {
   "property": "C84",
   "status": "proved",
   "theorems": [
    "GS.Props.C84_kept",
    "GS.Props.C84_kept_structural",
    "GS.Props.C84_replacing",
    "GS.Props.C84_removal_basic",
    "GS.Props.C84_removal_structural",
    "GS.Props.C84_removal_owner"
   ],
   "note": "Warnings are values in the model (Verif/Warn.lean); a filter that turns them into exceptions is not modelled."
  },
  {
   "property": "C85",
   "status": "proved",
   "theorems": [
    "GS.Props.C85_cycle_announced",
    "GS.Props.C85_cycle_true",
    "GS.Props.C85_already",
    "GS.Props.C85_already_order",
    "GS.Props.C85_ignored",
    "GS.Props.C85_no_edge"
   ],
   "note": "C85_cycle_true is for calls that do not raise and conditions that are used for one owner each. The position for WithNode needs a graph without self-edges."
  },
  {
   "property": "C86",
   "status": "partial",
   "theorems": [
    "GS.Props.C86_self_sound",
    "GS.Props.C86_self_partial",
    "GS.Props.C86_self_missed",
    "GS.Props.C86_blame_partial",
    "GS.Props.C86_blame_wrong",
    "GS.Props.C86_exact_when",
    "GS.Props.C86_exact_partial",
    "GS.Props.C86_exact_effect"
   ],
   "note": "False as stated: no warning for a dependency that is not the first, for a Threshold or for a part that has an owner already (C86_self_missed); the warning about a cycle names the last condition (C86_blame_wrong); structural conditions have an effect in exact-time mode (C86_exact_effect). Proved: the warnings about dependencies are true, and complete for the other classes and fresh conditions; the name is right for a single addition after a read; the warning of exact-time mode is given exactly if there is a structural condition, and is true if each node has a condition of its own, the nodes are kept and no user function looks at the graph."
  },
  {
   "property": "C87",
   "status": "proved",
   "theorems": [
    "GS.Props.C87_meaning",
    "GS.Props.C87_one",
    "GS.Props.C87_case"
   ],
   "note": "Names in ASCII; options are operations or strings, as annotated."
  },
  {
   "property": "C88",
   "status": "partial",
   "theorems": [
    "GS.Props.C88_rejected_partial",
    "GS.Props.C88_kind",
    "GS.Props.C88_never_applied",
    "GS.Props.C88_missing_accepted",
    "GS.Props.C88_unknown_accepted",
    "GS.Props.C88_unnoticed"
   ],
   "note": "False as stated: a dict without an entry for a subject (C88_missing_accepted) and an unknown name (C88_unknown_accepted) are accepted, and go unnoticed where the owner already is in place (C88_unnoticed). Proved: exactly which calls are accepted, and that a condition with an option that means nothing never transforms a graph."
  },
  {
   "property": "C89",
   "status": "partial",
   "theorems": [
    "GS.Props.C89_dicts_partial",
    "GS.Props.C89_unknown_kept",
    "GS.Props.C89_independent",
    "GS.Props.C89_written",
    "GS.Props.C89_written_on_failure",
    "GS.Props.C89_kept_by_reference"
   ],
   "note": "False as stated: the constructor replaces names in the dict by operations (C89_written), also when it fails (C89_written_on_failure), and the condition changes with the dict (C89_kept_by_reference). Proved: the keys and the meaning of the entries stay, and no condition's effect is changed by creating others."
  },
  {
   "property": "C90",
   "status": "proved",
   "theorems": [
    "GS.Props.C90_source",
    "GS.Props.C90_never_raises",
    "GS.Props.C90_again",
    "GS.Props.C90_begins",
    "GS.Props.C90_new",
    "GS.Props.C90_needed"
   ],
   "note": "Between the steps only the outside world changes (C90_source: anything but the scheduler's books). In absolute-time mode the execution id must have a list of time stamps (cf. C17)."
  },
  {
   "property": "C91",
   "status": "partial",
   "theorems": [
    "GS.Props.C91_again_partial",
    "GS.Props.C91_not_again",
    "GS.Props.C91_not_again_with"
   ],
   "note": "False for BeforeNodes with owner_senders=KEEP and subject_senders=REPLACE together with removal of self-edges or cycles (C91_not_again), and for WithNode with a self-edge at the subject (C91_not_again_with); proved for all other options, for WithNode if owner and subject have no self-edge."
  },
  {
   "property": "C92",
   "status": "proved",
   "theorems": [
    "GS.Props.C92_last_call_decides",
    "GS.Props.C92_same_last_calls",
    "GS.Props.C92_any_order"
   ],
   "note": ""
  },
  {
   "property": "C93",
   "status": "proved",
   "theorems": [
    "GS.Props.C93_more_edges",
    "GS.Props.C93_others_stay",
    "GS.Props.C93_add_edge",
    "GS.Props.C93_remove_edge"
   ],
   "note": "Standard mode; for nodes that have a position before and after, which all have if both graphs are acyclic (C01)."
  },
  {
   "property": "C94",
   "status": "proved",
   "theorems": [
    "GS.Props.C94_call",
    "GS.Props.C94_documented",
    "GS.Props.C94_rejected",
    "GS.Props.C94_argument",
    "GS.Props.C94_scheduler"
   ],
   "note": ""
  },
  {
   "property": "C95",
   "status": "partial",
   "theorems": [
    "GS.Props.C95_added",
    "GS.Props.C95_obeyed_partial",
    "GS.Props.C95_removed",
    "GS.Props.C95_without_condition",
    "GS.Props.C95_key_error"
   ],
   "note": "Proved for added conditions. False for removed ones: the run yields nothing any more once it considers the node (C95_without_condition) and raises KeyError (C95_key_error); the default condition comes back with the next run."
  },
  {
   "property": "C96",
   "status": "partial",
   "theorems": [
    "GS.Props.C96_positions",
    "GS.Props.C96_pass_partial",
    "GS.Props.C96_whole_pass_partial",
    "GS.Props.C96_twice",
    "GS.Props.C96_skipped"
   ],
   "note": "False in the pass in which the graph changes: a node can be considered twice (C96_twice) or left out (C96_skipped), because run() keeps a position in the queue. Proved: passes during which the queue does not change, after any changes before; and for all passes, that the positions are counted through and each considered set is the current one at its position."
  },
  {
   "property": "C97",
   "status": "proved",
   "theorems": [
    "GS.Props.C97_at_most",
    "GS.Props.C97_yielded",
    "GS.Props.C97_counted",
    "GS.Props.C97_decided",
    "GS.Props.C97_never_returns"
   ],
   "note": "An execution that is decided but not yet yielded counts. n is an integer."
  },
  {
   "property": "C98",
   "status": "proved",
   "theorems": [
    "GS.Props.C98_only",
    "GS.Props.C98_in_run",
    "GS.Props.C98_each",
    "GS.Props.C98_times",
    "GS.Props.C98_once",
    "GS.Props.C98_not_again",
    "GS.Props.C98_choice",
    "GS.Props.C98_next"
   ],
   "note": "C98_only shows that the evaluations counted are all that matter: a step does not depend on the condition of any other node. Evaluations of termination conditions are not counted, and a component inside a composite condition is not counted separately."
  },
  {
   "property": "C99",
   "status": "proved",
   "theorems": [
    "GS.Props.C99_never",
    "GS.Props.C99_no_return",
    "GS.Props.C99_others",
    "GS.Props.C99_returns",
    "GS.Props.C99_iff"
   ],
   "note": "For conditions with the time scale that is their default. The scheduler is in good order (Healthy, cf. C90)."
  },
  {
   "property": "C100",
   "status": "partial",
   "theorems": [
    "GS.Props.C100_conditions",
    "GS.Props.C100_order",
    "GS.Props.C100_graph_partial",
    "GS.Props.C100_one_owner",
    "GS.Props.C100_order_lost",
    "GS.Props.C100_itself_never_ends",
    "GS.Props.C100_itself_repeats",
    "GS.Props.C100_itself_doubles"
   ],
   "note": "The conditions are the same. False of the code for the graph: conditions of different owners are applied in the order of the owners in the conditions view (C100_order), which can give another graph (C100_order_lost). Proved where conditions of different owners commute (C100_graph_partial). Adding a set to itself does not end if an owner has several structural conditions and no basic one (C100_itself_never_ends); otherwise it ends and doubles them (C100_itself_doubles). Each condition object is used for one owner only."
  },
  {
   "property": "C101",
   "status": "proved",
   "theorems": [
    "GS.Props.C101_undisturbed",
    "GS.Props.C101_interleaving",
    "GS.Props.C101_shared_quota",
    "GS.Props.C101_shared_owner"
   ],
   "note": "Several schedulers over one common store of condition objects. The last two theorems show that the proviso (no object in common) is needed. Structural conditions take part as changes of the scheduler's graph and consideration queue (Deed.other)."
  },
  {
   "property": "C102",
   "status": "partial",
   "theorems": [
    "GS.Props.C102_named_partial",
    "GS.Props.C102_keyword_raises"
   ],
   "note": "False as stated: with two keywords or more, or with a condition as the value of a keyword, TypeError is raised (C102_keyword_raises). Proved for positional arguments and for one keyword whose value is a list."
  },
  {
   "property": "C103",
   "status": "proved",
   "theorems": [
    "GS.Props.C103_loosened",
    "GS.Props.C103_begun",
    "GS.Props.C103_looser",
    "GS.Props.C103_two_senders"
   ],
   "note": "C103_loosened is stated before the runs, C103_begun when they have begun; C103_looser gives the conditions that are easier to satisfy. C103_two_senders: the exception. The outside world does not change during the runs, and runs are not in absolute-time mode."
  },
  {
   "property": "C104",
   "status": "proved",
   "theorems": [
    "GS.Props.C104_start",
    "GS.Props.C104_run",
    "GS.Props.C104_yields",
    "GS.Props.C104_build",
    "GS.Props.C104_hidden"
   ],
   "note": "C104_run: the two runs go through the same events step by step, in both directions, and their schedulers differ in absolute time only (SysTempo). C104_yields: the sets and their times. C104_build: how such schedulers come about. C104_hidden: the proviso about Not is needed. Numbers are exact; the code rounds the remainder in TimeInterval to 8 digits, so durations that are very small in their unit are outside the model."
  },
  {
   "property": "C105",
   "status": "partial",
   "theorems": [
    "GS.Props.C105_graphs",
    "GS.Props.C105_strings_partial",
    "GS.Props.C105_unprintable",
    "GS.Props.C105_depends"
   ],
   "note": "Proved for nodes that are strings (C105_strings_partial). False for other nodes: if no node is a string, a disagreement is never reported by ConditionError but always by TypeError (C105_unprintable), because the message joins nodes as strings. C105_graphs: this affects only which exception is raised. C105_depends: with nodes of both kinds either can be raised."
  },
  {
   "property": "C106",
   "status": "partial",
   "theorems": [
    "GS.Props.C106_fork_partial",
    "GS.Props.C106_nothing_else_partial",
    "GS.Props.C106_after_run_partial",
    "GS.Props.C106_time",
    "GS.Props.C106_quota",
    "GS.Props.C106_abandoned"
   ],
   "note": "Proved, in both directions, for conditions that do not ask for the time before the current environment state update (calls at all scales and JustRan are allowed), with NWhen objects equally often satisfied under both ids, when the base stands at the beginning of an update; C106_after_run_partial: this is so after every complete run. False otherwise: the clock of the base is not copied (C106_time, C106_abandoned) and neither is how often an NWhen was satisfied (C106_quota)."
  },
  {
   "property": "C107",
   "status": "partial",
   "theorems": [
    "GS.Props.C107_names_partial",
    "GS.Props.C107_rejected",
    "GS.Props.C107_swallowed",
    "GS.Props.C107_positional",
    "GS.Props.C107_keywords",
    "GS.Props.C107_method",
    "GS.Props.C107_validator"
   ],
   "note": "Proved for all names outside a list of ten, which is part of the statement (reserved). False for these: is_absolute, absolute_intervals and absolute_fixed_points make creation fail (C107_rejected); _owner does not reach the function (C107_swallowed); args replaces the positional arguments (C107_positional), kwargs the keyword arguments (C107_keywords), is_satisfied the function (C107_method); with _validate_owner the condition may refuse its owner (C107_validator)."
  },
  {
   "property": "C108",
   "status": "proved",
   "theorems": [
    "GS.Props.C108_new",
    "GS.Props.C108_user",
    "GS.Props.C108_start",
    "GS.Props.C108_life",
    "GS.Props.C108_under",
    "GS.Props.C108_run",
    "GS.Props.C108_default"
   ],
   "note": "C108_life: the whole life of a scheduler, in both directions. base_execution_id is renamed too: None is an id, and run() takes it if no base is given, which is why a scheduler with another default id behaves differently for new ids (C28_default_id_not_none). C108_default: for the default id itself no base need be given. Structural conditions take part only as what the user does in between."
  },
  {
   "property": "C109",
   "status": "partial",
   "theorems": [
    "GS.Props.C109_deleted_partial",
    "GS.Props.C109_same",
    "GS.Props.C109_apart",
    "GS.Props.C109_undisturbed",
    "GS.Props.C109_values",
    "GS.Props.C109_kept",
    "GS.Props.C109_shared",
    "GS.Props.C109_survives_deletion",
    "GS.Props.C109_not_deleted",
    "GS.Props.C109_unused"
   ],
   "note": "Proved for ids without an attribute default_execution_id, and for the others with that attribute in place of the id. False as stated for ids that have the attribute: they share the clock of the id it names (C109_shared), and deleting their context leaves their clock in place (C109_survives_deletion, C109_not_deleted); the clock that is deleted is one that was never used (C109_unused). C109_values and C109_kept show that the clocks of the main model, which are values, are the contents of these objects."
  },
  {
   "property": "C110",
   "status": "proved",
   "theorems": [
    "GS.Props.C110_blocked",
    "GS.Props.C110_no_run",
    "GS.Props.C110_recovers",
    "GS.Props.C110_earlier_removed"
   ],
   "note": "C110_earlier_removed shows why conditions that were applied before must stay in place meanwhile: otherwise every later read raises IndexError."
  },
  {
   "property": "C111",
   "status": "partial",
   "theorems": [
    "GS.Props.C111_same_partial",
    "GS.Props.C111_all_partial",
    "GS.Props.C111_queue_partial",
    "GS.Props.C111_shows_partial",
    "GS.Props.C111_restated_partial",
    "GS.Props.C111_runs_partial",
    "GS.Props.C111_isomorphic_partial",
    "GS.Props.C111_reconnect_order",
    "GS.Props.C111_pruning_order",
    "GS.Props.C111_conflicts_order"
   ],
   "note": "Proved for edge conditions without restriction, and for repositioning conditions unless conflicts are ignored where there are some, a graph with cycles is reconnected, or cycles are pruned. In these three cases the claim is false of the code: C111_conflicts_order, C111_reconnect_order, C111_pruning_order."
  },
  {
   "property": "C112",
   "status": "proved",
   "theorems": [
    "GS.Props.C112_names",
    "GS.Props.C112_graph",
    "GS.Props.C112_condition",
    "GS.Props.C112_object",
    "GS.Props.C112_cycles",
    "GS.Props.C112_new",
    "GS.Props.C112_call",
    "GS.Props.C112_read",
    "GS.Props.C112_calls",
    "GS.Props.C112_run"
   ],
   "note": "Sets are lists in the model and a renaming keeps their order. What the order can change is the subject of C83 and C111; C82_isomorphic and C111_isomorphic_partial are about other names and another order at once."
  },
  {
   "property": "C113",
   "status": "proved",
   "theorems": [
    "GS.Props.C113_pattern",
    "GS.Props.C113_run",
    "GS.Props.C113_graph",
    "GS.Props.C113_only"
   ],
   "note": "scheduler.py:12-14. What is logically possible is read as: a node executes at most once in a pass, and the sets of a pass come from its consideration sets in their order; C113_only proves that runs cannot do anything else."
  },
  {
   "property": "C114",
   "status": "proved",
   "theorems": [
    "GS.Props.C114_apart",
    "GS.Props.C114_start",
    "GS.Props.C114_together"
   ],
   "note": "The example of the documentation (A -> B, both with TimeInterval(start=10)) is run in both modes beside the theorems."
  },
  {
   "property": "C115",
   "status": "partial",
   "theorems": [
    "GS.Props.C115_later_partial",
    "GS.Props.C115_reaches_partial",
    "GS.Props.C115_stands",
    "GS.Props.C115_never_ends",
    "GS.Props.C115_fromZero"
   ],
   "note": "False of the code: if all times that decide the interval are 0, for example TimeInterval(start=0) in exact-time mode together with TimeTermination(5, inclusive=False), the interval is 0, all sets are yielded at the same time and the run neither returns nor raises (C115_fromZero, for every number of steps). Proved if the default unit is positive and not all of these times are 0."
  },
  {
   "property": "C116",
   "status": "proved",
   "theorems": [
    "GS.Props.C116_restated",
    "GS.Props.C116_builtIn",
    "GS.Props.C116_runs"
   ],
   "note": "The order inside consideration sets and the described conditions are the hypotheses of C83 (SetsSettled, DescribedNodes). C116_restated has neither. For structural conditions of built-in classes the hypothesis on the nodes is a theorem (C116_builtIn). Structural conditions added after a run are not covered: the default conditions made in that run stay as they are (C54). The example of the documentation, with an additional basic condition, is run beside the theorems."
  },
  {
   "property": "C117",
   "status": "partial",
   "theorems": [
    "GS.Props.C117_start_partial",
    "GS.Props.C117_start_error",
    "GS.Props.C117_repeat_partial",
    "GS.Props.C117_unit",
    "GS.Props.C117_exact_mode",
    "GS.Props.C117_lost"
   ],
   "note": "False of the code: in a scheduler with one consideration set, the start of TimeInterval(repeat='1 ms', start='1 ps') is rounded to 0 ms, from where the condition is never satisfied, so the node never executes (C117_lost). Proved for runs that start at a whole number of the unit of the interval (which includes every first run in exact-time mode, C117_exact_mode) with fewer than 200 million consideration sets; in every run the start is off by at most a 200-millionth of the unit (C117_start_error). Numbers are exact apart from the two roundings; floats are not modelled."
  },
  {
   "property": "C118",
   "status": "proved",
   "theorems": [
    "GS.Props.C118_default",
    "GS.Props.C118_passes",
    "GS.Props.C118_run",
    "GS.Props.C118_graph"
   ],
   "note": "The documentation's example is an instance (feedback_pattern)."
  },
  {
   "property": "C119",
   "status": "proved",
   "theorems": [
    "GS.Props.C119_passes",
    "GS.Props.C119_default",
    "GS.Props.C119_run",
    "GS.Props.C119_exact"
   ],
   "note": "The documentation's example is an instance (trigger_pattern)."
  },
  {
   "property": "C120",
   "status": "proved",
   "theorems": [
    "GS.Props.C120_alternates",
    "GS.Props.C120_alternates_run",
    "GS.Props.C120_two_processes",
    "GS.Props.C120_two_processes_run"
   ],
   "note": ""
  },
  {
   "property": "C121",
   "status": "proved",
   "theorems": [
    "GS.Props.C121",
    "GS.Props.C121_any",
    "GS.Props.C121_justRan"
   ],
   "note": "C121_justRan is the exception named in the statement, by a concrete run."
  },
  {
   "property": "C122",
   "status": "proved",
   "theorems": [
    "GS.Props.C122",
    "GS.Props.C122_back",
    "GS.Props.C122_new",
    "GS.Props.C122_finer"
   ],
   "note": "C122_finer is the exception named in the statement, by concrete runs."
  },
  {
   "property": "C123",
   "status": "proved",
   "theorems": [
    "GS.Props.C123_text",
    "GS.Props.C123_identifies",
    "GS.Props.C123_simple",
    "GS.Props.C123_clock",
    "GS.Props.C123_run",
    "GS.Props.C123_simple_repeats"
   ],
   "note": "The text of a quantity is made by pint and is a parameter (without a comma). C123_simple_repeats is the exception named in the statement, by a concrete run."
  },
  {
   "property": "C124",
   "status": "proved",
   "theorems": [
    "GS.Props.C124_values",
    "GS.Props.C124_live",
    "GS.Props.C124_snapshot"
   ],
   "note": "The tree of a clock's history is a value in the model: its objects are not handed out."
  },
  {
   "property": "C125",
   "status": "proved",
   "theorems": [
    "GS.Props.C125_set",
    "GS.Props.C125_scheduler",
    "GS.Props.C125_values",
    "GS.Props.C125_unchanged",
    "GS.Props.C125_bulk",
    "GS.Props.C125_rejected",
    "GS.Props.C125_after_removal"
   ],
   "note": "C125_after_removal is the witness that the proviso of C125_rejected is needed. The warnings of Threshold.__init__ and of the start of a run are in C127."
  },
  {
   "property": "C126",
   "status": "proved",
   "theorems": [
    "GS.Props.C126_together",
    "GS.Props.C126_calls",
    "GS.Props.C126_same_set"
   ],
   "note": "C126_same_set is the witness that the proviso (the condition does not count calls in the same set) is needed. Conditions and termination conditions are the described ones of C81."
  },
  {
   "property": "C127",
   "status": "proved",
   "theorems": [
    "GS.Props.C127_quiet",
    "GS.Props.C127_stopped",
    "GS.Props.C127_later",
    "GS.Props.C127_again",
    "GS.Props.C127_whole",
    "GS.Props.C127_threshold"
   ],
   "note": "The graph is taken as read when the run starts; reading it under the filter is C125."
  },
  {
   "property": "C128",
   "status": "proved",
   "theorems": [
    "GS.Props.C128_only",
    "GS.Props.C128_exactly",
    "GS.Props.C128_limited"
   ],
   "note": "For runs under one execution id before the first end_environment_sequence, as C81."
  },
  {
   "property": "C129",
   "status": "proved",
   "theorems": [
    "GS.Props.C129_as_one",
    "GS.Props.C129_plain"
   ],
   "note": "For runs under one execution id before the first end_environment_sequence, as C81."
  },
  {
   "property": "C130",
   "status": "proved",
   "theorems": [
    "GS.Props.C130_chain",
    "GS.Props.C130_starved"
   ],
   "note": "For runs under one execution id before the first end_environment_sequence, as C81."
  },
  {
   "property": "C131",
   "status": "proved",
   "theorems": [
    "GS.Props.C131_recurrence",
    "GS.Props.C131_only",
    "GS.Props.C131_default",
    "GS.Props.C131_solves",
    "GS.Props.C131_determined",
    "GS.Props.C131_same"
   ],
   "note": "For runs under one execution id before the first end_environment_sequence, as C81."
  },
  {
   "property": "C132",
   "status": "proved",
   "theorems": [
    "GS.Props.C132_standstill",
    "GS.Props.C132_no_return"
   ],
   "note": "For runs under one execution id before the first end_environment_sequence, as C81."
  },
  {
   "property": "C133",
   "status": "proved",
   "theorems": [
    "GS.Props.C133_one_run",
    "GS.Props.C133_divided"
   ],
   "note": "For runs under one execution id before the first end_environment_sequence, as C81; all runs in absolute time or none."
  },
  {
   "property": "C134",
   "status": "proved",
   "theorems": [
    "GS.Props.C134_all_alike",
    "GS.Props.C134_once"
   ],
   "note": "For runs under one execution id before the first end_environment_sequence, as C81; all runs in absolute time or none."
  }
 ]
}