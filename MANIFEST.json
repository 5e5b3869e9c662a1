{
 "claims": [
  {
   "property": "C01",
   "status": "proved",
   "theorems": [
    "Verif.Props.C01_value_is_sum_of_received",
    "Verif.Props.C01_received_finite",
    "Verif.Props.C01_convergence",
    "Verif.Props.C01_merge_comm",
    "Verif.Props.C01_merge_assoc",
    "Verif.Props.C01_merge_idem",
    "Verif.Props.C01_merge_self",
    "Verif.Props.C01_increment"
   ],
   "note": "Every copy in every execution of the replica system shows the sum of the increments it has received; merge laws hold on the lookup of every state."
  },
  {
   "property": "C02",
   "status": "proved",
   "theorems": [
    "Verif.Props.C02_value_is_sum_of_received",
    "Verif.Props.C02_convergence",
    "Verif.Props.C02_merge_comm",
    "Verif.Props.C02_merge_assoc",
    "Verif.Props.C02_merge_idem",
    "Verif.Props.C02_delta_is_merge",
    "Verif.Props.C02_delta_none_covered",
    "Verif.Props.C02_delta_some_of_missing"
   ],
   "note": "As C01 for both signs; applying a delta equals a full merge, and a refused delta means the peer has everything."
  },
  {
   "property": "C03",
   "status": "proved",
   "theorems": [
    "Verif.Props.C03_dominates_refl",
    "Verif.Props.C03_dominates_trans",
    "Verif.Props.C03_dominates_antisymm",
    "Verif.Props.C03_concurrent_iff",
    "Verif.Props.C03_merge_lub",
    "Verif.Props.C03_increment_strict"
   ],
   "note": "Order laws, least upper bound, strictness of increment."
  },
  {
   "property": "C04",
   "status": "proved",
   "theorems": [
    "Verif.Props.C04_has_seen_iff_given",
    "Verif.Props.C04_next_fresh",
    "Verif.Props.C04_next_repeats_foreign_own_dot"
   ],
   "note": "Full statement; fresh dots under the provenance condition that a replica's own dots are only drawn by itself (shown necessary by C04_next_repeats_foreign_own_dot)."
  },
  {
   "property": "C05",
   "status": "partial",
   "theorems": [
    "Verif.Props.C05_merge_comm_fails",
    "Verif.Props.C05_diverges_on_tie",
    "Verif.Props.C05_merge_comm_partial",
    "Verif.Props.C05_merge_assoc",
    "Verif.Props.C05_merge_idem",
    "Verif.Props.C05_merge_greatest",
    "Verif.Props.C05_value_is_latest_partial"
   ],
   "note": "The full statement is false: equal timestamps diverge (C05_merge_comm_fails, C05_diverges_on_tie). Proved for distinct timestamps."
  },
  {
   "property": "C06",
   "status": "proved",
   "theorems": [
    "Verif.Props.C06_values_are_current_writes",
    "Verif.Props.C06_convergence",
    "Verif.Props.C06_set_supersedes",
    "Verif.Props.C06_delta_none_covered",
    "Verif.Props.C06_delta_is_merge"
   ],
   "note": "Values shown are exactly the received writes no received write has seen, for all executions."
  },
  {
   "property": "C07",
   "status": "proved",
   "theorems": [
    "Verif.Props.C07_member_iff",
    "Verif.Props.C07_convergence",
    "Verif.Props.C07_concurrent_add_survives",
    "Verif.Props.C07_remove_deletes_seen",
    "Verif.Props.C07_merge_comm",
    "Verif.Props.C07_merge_idem",
    "Verif.Props.C07_add",
    "Verif.Props.C07_remove",
    "Verif.Props.C07_iter"
   ],
   "note": "Membership is the observed-remove rule in every reachable copy; convergence for every schedule of merges."
  },
  {
   "property": "C08",
   "status": "partial",
   "theorems": [
    "Verif.Props.C08_diverges",
    "Verif.Props.C08_merge_comm_partial",
    "Verif.Props.C08_merge_idem_partial",
    "Verif.Props.C08_remove_wins_pairwise"
   ],
   "note": "The full statement is false: C08_diverges. Proved: pairwise commutativity, idempotence and the remove-wins rule for two states."
  },
  {
   "property": "C09",
   "status": "proved",
   "theorems": [
    "Verif.Props.C09_key_iff",
    "Verif.Props.C09_merge_value",
    "Verif.Props.C09_merge_comm",
    "Verif.Props.C09_merge_idem",
    "Verif.Props.C09_convergence",
    "Verif.Props.C09_reinsert_shows_old_value"
   ],
   "note": "Keys follow the observed-remove rule; values merge per key; convergence for values in a join semilattice moved only upwards."
  },
  {
   "property": "C10",
   "status": "partial",
   "theorems": [
    "Verif.Props.C10_incomplete_fails",
    "Verif.Props.C10_size_zero_holds_one",
    "Verif.Props.C10_size_bound",
    "Verif.Props.C10_complete_partial"
   ],
   "note": "The full statement is false (C10_incomplete_fails); proved when the peer's clock is one of the versions pushed. Size bound proved for sizes of at least one."
  },
  {
   "property": "C11",
   "status": "proved",
   "theorems": [
    "Verif.Props.C11_edits_are_list_edits",
    "Verif.Props.C11_out_of_range_goes_to_front"
   ],
   "note": "All reachable states of RGA replicas; inserts beyond the end go to the front (C11_out_of_range_goes_to_front)."
  },
  {
   "property": "C12",
   "status": "proved",
   "theorems": [
    "Verif.Props.C12_sequence_spec",
    "Verif.Props.C12_convergence",
    "Verif.Props.C12_merge_laws"
   ],
   "note": "The visible list is a function of the operations received, contains exactly the inserts no received remove hit, and all views agree on the order of common elements; merge laws on reachable copies."
  },
  {
   "property": "C13",
   "status": "proved",
   "theorems": [
    "Verif.Props.C13_edits_are_list_edits",
    "Verif.Props.C13_sequence_spec",
    "Verif.Props.C13_convergence",
    "Verif.Props.C13_merge_laws"
   ],
   "note": "Same statements as C11 and C12 for YATA."
  },
  {
   "property": "C14",
   "status": "proved",
   "theorems": [
    "Verif.Props.C14_first_in_first_out",
    "Verif.Props.C14_no_send_lost",
    "Verif.Props.C14_sends_recorded",
    "Verif.Props.C14_bounded",
    "Verif.Props.C14_tasks_see_the_record",
    "Verif.Props.C14_no_missed_meeting",
    "Verif.Props.C14_duplicate_arm_fails"
   ],
   "note": "Proved for every reachable state of every program (arbitrary task bodies, policies, seeds or traces), excluding duplicate select arms as the property says; C14_duplicate_arm_fails shows why. Aborted tasks' parked values are dropped, as the abort intends."
  },
  {
   "property": "C15",
   "status": "proved",
   "theorems": [
    "Verif.Props.C15_registrations",
    "Verif.Props.C15_ready_exact",
    "Verif.Props.C15_blocked_for_a_reason",
    "Verif.Props.C15_duplicate_arm_fails"
   ],
   "note": "Proved for every reachable state (no self-abort, no duplicate select arm). C15_duplicate_arm_fails: a select naming a channel twice puts a task in the ready list twice."
  },
  {
   "property": "C16",
   "status": "proved",
   "theorems": [
    "Verif.Props.C16_replay",
    "Verif.Props.C16_slices",
    "Verif.Props.C16_slice_outcomes"
   ],
   "note": "Proved for every list of owner commands and every seed."
  },
  {
   "property": "C17",
   "status": "proved",
   "theorems": [
    "Verif.Props.C17_deadlock_iff",
    "Verif.Props.C17_deadlock_stays",
    "Verif.Props.C17_done_iff",
    "Verif.Props.C17_main_role",
    "Verif.Props.C17_waiting_iff"
   ],
   "note": "Proved both ways for deadlock, completion and waiting for I/O."
  },
  {
   "property": "C18",
   "status": "proved",
   "theorems": [
    "Verif.Props.C18_clock_monotone",
    "Verif.Props.C18_idle_jump",
    "Verif.Props.C18_sleep_exact",
    "Verif.Props.C18_polls_in_order",
    "Verif.Props.C18_no_overdue_timer",
    "Verif.Props.C18_ties_follow_chooser"
   ],
   "note": "Proved. Equal deadlines: order is drawn from the chooser (C18_ties_follow_chooser)."
  },
  {
   "property": "C19",
   "status": "partial",
   "theorems": [
    "Verif.Props.C19_finished_never_polled_partial",
    "Verif.Props.C19_abort_takes_effect_partial",
    "Verif.Props.C19_waiters_told_partial",
    "Verif.Props.C19_self_abort_fails"
   ],
   "note": "Proved for aborts of other tasks. The full property also covers a task that aborts itself: there the code re-readies the aborted task, which is polled again (C19_self_abort_fails)."
  },
  {
   "property": "C20",
   "status": "partial",
   "theorems": [
    "Verif.Props.C20_follows_cooperative_partial",
    "Verif.Props.C20_same_outcome_partial",
    "Verif.Props.C20_lifo_fails",
    "Verif.Props.C20_priority_fails",
    "Verif.Props.C20_random_fails",
    "Verif.Props.C20_abort_fails"
   ],
   "note": "The multi-threaded executor is proved to follow the single-threaded run (polls, answers, choices, results, outcome; no panic) for FIFO and round-robin, every worker count and every thread interleaving, for programs without I/O that do not abort a task which could run. Under LIFO, priority and random, and for an abort of a task in the same batch, the claim is false; witnesses proved."
  },
  {
   "property": "C21",
   "status": "proved",
   "theorems": [
    "Verif.Props.C21_refutation_sound",
    "Verif.Props.C21_clause_implied",
    "Verif.Props.C21_accepts_exactly"
   ],
   "note": "Soundness for arbitrary certificates, plus an exact characterisation (accepted iff every step is a unit-propagation consequence). The CDCL search itself is not modelled: it is an untrusted producer of the certificate."
  },
  {
   "property": "C22",
   "status": "proved",
   "theorems": [
    "Verif.Props.C22_refutation_sound",
    "Verif.Props.C22_step_keeps_satisfiable",
    "Verif.Props.C22_accepts_symmetry",
    "Verif.Props.C22_accepts_assignment",
    "Verif.Props.C22_delete"
   ],
   "note": "check_pr_refutation with assignment and substitution witnesses and deletions; also acceptance of genuine steps. The indexed variant (check_pr_refutation_fast, AutomorphismIndex) is not modelled here."
  },
  {
   "property": "C23",
   "status": "partial",
   "theorems": [
    "Verif.Props.C23_models_iff_partial",
    "Verif.Props.C23_refutation_iff_partial",
    "Verif.Props.C23_entailed_verdict_partial",
    "Verif.Props.C23_encodable",
    "Verif.Props.C23_letters",
    "Verif.Props.C23_alias_fails",
    "Verif.Props.C23_identity_symmetric",
    "Verif.Props.C23_keys_distinct",
    "Verif.Props.C23_plain"
   ],
   "note": "Exact equivalence for every valuation that does not tell apart atoms with equal keys; for formulas over plain names (no key punctuation, no worlds, groups or bound variables) exact equivalence for every valuation with symmetric identity (C23_plain, from C23_keys_distinct); unrestricted for propositional letters (C23_letters). C23_alias_fails: predicates at different worlds, names with commas and different groups share one variable, so the full claim is false."
  },
  {
   "property": "C24",
   "status": "proved",
   "theorems": [
    "Verif.Props.C24_roundtrip",
    "Verif.Props.C24_in_range",
    "Verif.Props.C24_layout",
    "Verif.Props.C24_comments",
    "Verif.Props.C24_last_line",
    "Verif.Props.C24_unfinished",
    "Verif.Props.C24_large_variable_fails"
   ],
   "note": "Round trip, range of accepted literals, layout independence (white space, comment lines, missing final newline or final 0). C24_large_variable_fails: a declared variable beyond 2^31 is silently folded onto another one."
  },
  {
   "property": "C25",
   "status": "proved",
   "theorems": [
    "Verif.Props.C25_satisfies_sound",
    "Verif.Props.C25_satisfies_complete",
    "Verif.Props.C25_refutation_sound",
    "Verif.Props.C25_sat_model",
    "Verif.Props.C25_unsat_refuted",
    "Verif.Props.C25_decides",
    "Verif.Props.C25_out_of_range_fails"
   ],
   "note": "For every 2-CNF instance whose variables are below the declared count the solver decides satisfiability; its assignment is a model accepted by satisfies, its variable a refutation accepted by the checker. Soundness of the checker and of satisfies needs no assumption. C25_out_of_range_fails shows what happens otherwise."
  },
  {
   "property": "C26",
   "status": "proved",
   "theorems": [
    "Verif.Props.C26_satisfies_iff",
    "Verif.Props.C26_sat_least",
    "Verif.Props.C26_refutation_sound",
    "Verif.Props.C26_unsat_refuted",
    "Verif.Props.C26_decides",
    "Verif.Props.C26_out_of_range_fails"
   ],
   "note": "For every Horn instance whose variables are below the declared count: the solver decides satisfiability, its model is the least one and accepted by satisfies, its derivation is accepted by the checker; acceptance by the checker implies unsatisfiability for every instance and list. Without the range assumption the solver and its checker disagree (C26_out_of_range_fails)."
  },
  {
   "property": "C27",
   "status": "partial",
   "theorems": [
    "Verif.Props.C27_valid_sound",
    "Verif.Props.C27_valid_complete",
    "Verif.Props.C27_peak",
    "Verif.Props.C27_infeasible",
    "Verif.Props.C27_feasible_partial",
    "Verif.Props.C27_decides_partial",
    "Verif.Props.C27_witness_partial",
    "Verif.Props.C27_repeated_witness_fails",
    "Verif.Props.C27_empty_task_fails"
   ],
   "note": "Validity checking, the peak and the infeasible answer are proved with no assumption. The feasible answer, deciding and accepted witnesses need non-empty tasks (C27_empty_task_fails) and witnesses without repetition (C27_repeated_witness_fails)."
  },
  {
   "property": "C28",
   "status": "partial",
   "theorems": [
    "Verif.Props.C28_valid_partial",
    "Verif.Props.C28_unlisted_fails",
    "Verif.Props.C28_spill_partial",
    "Verif.Props.C28_repeated_spill_fails",
    "Verif.Props.C28_allocate_partial"
   ],
   "note": "An accepted allocation is proved sound for variables it lists (C28_unlisted_fails shows one accepted although a live variable has no register); spill certificates need distinct variables (C28_repeated_spill_fails); the allocator's own answers are proved right for non-empty live ranges of distinct variables."
  },
  {
   "property": "C29",
   "status": "proved",
   "theorems": [
    "Verif.Props.C29_at_most",
    "Verif.Props.C29_at_least",
    "Verif.Props.C29_exactly",
    "Verif.Props.C29_sound",
    "Verif.Props.C29_prefixes"
   ],
   "note": "Each encoding is satisfiable over its auxiliary atoms exactly when the count is right, for every list of formulas, every k and every valuation, provided no auxiliary atom occurs in the formulas. Soundness needs no such proviso."
  },
  {
   "property": "C30",
   "status": "proved",
   "theorems": [
    "Verif.Props.C30_solve_some",
    "Verif.Props.C30_solve_none",
    "Verif.Props.C30_particular",
    "Verif.Props.C30_invertible",
    "Verif.Props.C30_unique",
    "Verif.Props.C30_64_columns_fails"
   ],
   "note": "Proved for all systems with fewer than 64 columns (any number of rows), as the property ranges; C30_64_columns_fails shows a wrong answer at 64 columns in a release build."
  },
  {
   "property": "C31",
   "status": "proved",
   "theorems": [
    "Verif.Props.C31_crash_recovers",
    "Verif.Props.C31_counter"
   ],
   "note": "Proved for every value type whose operations move forward under merge (C31_crash_recovers) and, with nothing assumed but that numbers fit, for GCounter with its bincode bytes (C31_counter). A crash keeps a prefix of the append; loss of synced data by the disk is not modelled."
  },
  {
   "property": "C32",
   "status": "partial",
   "theorems": [
    "Verif.Props.C32_durable_partial",
    "Verif.Props.C32_counter_partial",
    "Verif.Props.C32_silent_loss_fails",
    "Verif.Props.C32_unmountable_fails"
   ],
   "note": "Holds when a compaction rewrites the journal before the next append after a cut-off append. Otherwise acknowledged mutations are silently lost or the journal becomes unmountable (two witnesses): mount never truncates the torn tail."
  },
  {
   "property": "C33",
   "status": "partial",
   "theorems": [
    "Verif.Props.C33_compact_crash_partial",
    "Verif.Props.C33_concurrent_partial",
    "Verif.Props.C33_race_fails"
   ],
   "note": "One task: any crash point inside compaction is safe on the native filesystem (write to a temporary file, rename). Any interleaving of tasks is safe if no append falls between the copy and the write of a compaction; otherwise the acknowledged mutation is lost (witness)."
  },
  {
   "property": "C34",
   "status": "proved",
   "theorems": [
    "Verif.Props.C34_reassemble",
    "Verif.Props.C34_count",
    "Verif.Props.C34_manifest",
    "Verif.Props.C34_edges_fails"
   ],
   "note": "chunk sizes and file sizes whose sum is a machine word; the edges outside are C34_edges_fails"
  },
  {
   "property": "C35",
   "status": "proved",
   "theorems": [
    "Verif.Props.C35_any_k_of_n",
    "Verif.Props.C35_refuses",
    "Verif.Props.C35_systematic",
    "Verif.Props.C35_field",
    "Verif.Props.C35_reconstruct",
    "Verif.Props.C35_others_cannot_block"
   ],
   "note": "every payload, k, n and list of received shards; reconstruction from a bag of frames of several messages with distinct ids"
  },
  {
   "property": "C36",
   "status": "proved",
   "theorems": [
    "Verif.Props.C36_delivers_in_order",
    "Verif.Props.C36_not_late",
    "Verif.Props.C36_complete"
   ],
   "note": "any chunking and any drain schedule; total stream below 2^64 bytes"
  },
  {
   "property": "C37",
   "status": "proved",
   "theorems": [
    "Verif.Props.C37_roundtrip",
    "Verif.Props.C37_reads_prefix",
    "Verif.Props.C37_tags",
    "Verif.Props.C37_truncated",
    "Verif.Props.C37_injective",
    "Verif.Props.C37_int_bytes",
    "Verif.Props.C37_header",
    "Verif.Props.C37_bytes",
    "Verif.Props.C37_overlong_fails"
   ],
   "note": "Round trips, self-delimiting framing and rejection of wrong tags and truncations; overlong varints are accepted (recorded as a disagreement)."
  },
  {
   "property": "C38",
   "status": "partial",
   "theorems": [
    "Verif.Props.C38_delivered",
    "Verif.Props.C38_exactly_once_partial",
    "Verif.Props.C38_twice_fails",
    "Verif.Props.C38_two_senders_fails"
   ],
   "note": "at least once and exact payload proved; exactly once only when n < 2k and no shard is duplicated; duplicate hand-over (C38_twice_fails) and mixing of two senders' messages (C38_two_senders_fails) are witnessed"
  },
  {
   "property": "C39",
   "status": "partial",
   "theorems": [
    "Verif.Props.C39_get",
    "Verif.Props.C39_get_defined",
    "Verif.Props.C39_set",
    "Verif.Props.C39_text_partial",
    "Verif.Props.C39_text_prefix_partial",
    "Verif.Props.C39_text_fails"
   ],
   "note": "Sequences: full. Texts: proved for ASCII texts only; for other texts the code reads the wrong character (C39_text_fails)."
  },
  {
   "property": "C40",
   "status": "proved",
   "theorems": [
    "Verif.Props.C40_i64_map",
    "Verif.Props.C40_i64_set",
    "Verif.Props.C40_i32_map",
    "Verif.Props.C40_i32_set"
   ],
   "note": "All four types, any initial capacity, any insert sequence. Table sizes beyond usize are not modelled."
  },
  {
   "property": "C41",
   "status": "partial",
   "theorems": [
    "Verif.Props.C41_map",
    "Verif.Props.C41_set",
    "Verif.Props.C41_no_presence_partial",
    "Verif.Props.C41_no_presence_fails"
   ],
   "note": "Dense map and set: full. Presence-free map: inserted keys only; C41_no_presence_fails shows the rest is false of the code."
  },
  {
   "property": "C42",
   "status": "proved",
   "theorems": [
    "Verif.Props.C42_exact"
   ],
   "note": "All 2^64 dividends and 2^64-1 divisors; checked arithmetic never overflows."
  },
  {
   "property": "C43",
   "status": "proved",
   "theorems": [
    "Verif.Props.C43_value_semantics",
    "Verif.Props.C43_isolation",
    "Verif.Props.C43_copies_iff_shared"
   ],
   "note": "LogosSeq at every nesting depth. strong_count is modelled as the number of live handles. Assumes generated code calls cow() before each mutation and that freed buffers are not reused while referenced; LogosMap::cow has the same text and is not modelled separately."
  },
  {
   "property": "C44",
   "status": "proved",
   "theorems": [
    "Verif.Props.C44_eq_iff",
    "Verif.Props.C44_surjective",
    "Verif.Props.C44_fromI64",
    "Verif.Props.C44_fromU64",
    "Verif.Props.C44_toI64",
    "Verif.Props.C44_negated",
    "Verif.Props.C44_abs",
    "Verif.Props.C44_add",
    "Verif.Props.C44_sub",
    "Verif.Props.C44_mul",
    "Verif.Props.C44_pow",
    "Verif.Props.C44_div_by_zero",
    "Verif.Props.C44_div_rem",
    "Verif.Props.C44_cmp",
    "Verif.Props.C44_is_odd",
    "Verif.Props.C44_signs",
    "Verif.Props.C44_bytes_roundtrip",
    "Verif.Props.C44_from_bytes"
   ],
   "note": "All of the value semantics (construction, arithmetic, quotient/remainder, power, order, byte form) for every limb vector; the limb loops are modelled, not assumed."
  },
  {
   "property": "C45",
   "status": "proved",
   "theorems": [
    "Verif.Props.C45_display",
    "Verif.Props.C45_roundtrip",
    "Verif.Props.C45_parse_iff",
    "Verif.Props.C45_parse_int"
   ],
   "note": "Display is the decimal numeral, parsing accepts exactly optional sign plus digits, and the two are inverse."
  },
  {
   "property": "C46",
   "status": "proved",
   "theorems": [
    "Verif.Props.C46_canonical",
    "Verif.Props.C46_eq_iff",
    "Verif.Props.C46_new",
    "Verif.Props.C46_ofInt",
    "Verif.Props.C46_negated",
    "Verif.Props.C46_abs",
    "Verif.Props.C46_add",
    "Verif.Props.C46_sub",
    "Verif.Props.C46_mul",
    "Verif.Props.C46_div",
    "Verif.Props.C46_recip",
    "Verif.Props.C46_pow",
    "Verif.Props.C46_cmp",
    "Verif.Props.C46_to_bigint",
    "Verif.Props.C46_floor",
    "Verif.Props.C46_ceil",
    "Verif.Props.C46_round",
    "Verif.Props.C46_text_roundtrip"
   ],
   "note": "Every rational reachable through the API is in lowest terms and every operation is the operation of ℚ; BigInt is replaced by Int on the strength of C44/C45."
  },
  {
   "property": "C47",
   "status": "proved",
   "theorems": [
    "Verif.Props.C47_add",
    "Verif.Props.C47_sub",
    "Verif.Props.C47_mul",
    "Verif.Props.C47_rescale",
    "Verif.Props.C47_div",
    "Verif.Props.C47_from_rational",
    "Verif.Props.C47_to_rational",
    "Verif.Props.C47_eq",
    "Verif.Props.C47_cmp",
    "Verif.Props.C47_text_roundtrip",
    "Verif.Props.C47_mode_unique"
   ],
   "note": "Exact add/sub/mul, rounding contract per mode (shown to determine the result), equality and order by value, text round trip. Overflow of the u32 scale is not modelled."
  },
  {
   "property": "C48",
   "status": "proved",
   "theorems": [
    "Verif.Props.C48_scale",
    "Verif.Props.C48_add",
    "Verif.Props.C48_sub",
    "Verif.Props.C48_scale_int",
    "Verif.Props.C48_of",
    "Verif.Props.C48_eq",
    "Verif.Props.C48_ratio",
    "Verif.Props.C48_convert"
   ],
   "note": "Same-currency arithmetic, minor-unit invariant, single rounding in conversion. The catalog and upper-casing of codes are a parameter."
  },
  {
   "property": "C49",
   "status": "partial",
   "theorems": [
    "Verif.Props.C49_eq_iff",
    "Verif.Props.C49_add",
    "Verif.Props.C49_sub",
    "Verif.Props.C49_negated",
    "Verif.Props.C49_conjugate",
    "Verif.Props.C49_mul",
    "Verif.Props.C49_norm_sqr",
    "Verif.Props.C49_recip",
    "Verif.Props.C49_div",
    "Verif.Props.C49_pow_partial",
    "Verif.Props.C49_pow_min_fails",
    "Verif.Props.C49_text_roundtrip"
   ],
   "note": "All operations agree with ℂ; pow for every exponent except i32::MIN, where the code overflows (C49_pow_min_fails)."
  },
  {
   "property": "C50",
   "status": "proved",
   "theorems": [
    "Verif.Props.C50_range",
    "Verif.Props.C50_new",
    "Verif.Props.C50_eq_iff",
    "Verif.Props.C50_add",
    "Verif.Props.C50_sub",
    "Verif.Props.C50_mul",
    "Verif.Props.C50_negated",
    "Verif.Props.C50_pow",
    "Verif.Props.C50_inverse",
    "Verif.Props.C50_div"
   ],
   "note": "Full statement."
  },
  {
   "property": "C51",
   "status": "partial",
   "theorems": [
    "Verif.Props.C51_cmp_i64",
    "Verif.Props.C51_cmp_rational",
    "Verif.Props.C51_exact_value",
    "Verif.Props.C51_key_partial",
    "Verif.Props.C51_key_two63_fails",
    "Verif.Props.C51_key_not_finite"
   ],
   "note": "Comparison is exact for all bit patterns. The key lookup is exact for every float except 2^63, which the code maps to i64::MAX (C51_key_two63_fails)."
  },
  {
   "property": "C52",
   "status": "proved",
   "theorems": [
    "Verif.Props.C52_i64_bigint",
    "Verif.Props.C52_bigint",
    "Verif.Props.C52_bigint_rational",
    "Verif.Props.C52_float_rational",
    "Verif.Props.C52_float_bigint",
    "Verif.Props.C52_float_i64",
    "Verif.Props.C52_float_float"
   ],
   "note": "Full statement for finite floats; the infinities and NaN have fixed sentinels and equal no number."
  },
  {
   "property": "C53",
   "status": "proved",
   "theorems": [
    "Verif.Props.C53_find",
    "Verif.Props.C53_union_flag",
    "Verif.Props.C53_make",
    "Verif.Props.C53_depth"
   ],
   "note": "Includes the recursion depth bound log2 n + 1."
  },
  {
   "property": "C54",
   "status": "partial",
   "theorems": [
    "Verif.Props.C54_faithful_partial",
    "Verif.Props.C54_empty_fails",
    "Verif.Props.C54_wrap_fails"
   ],
   "note": "Up to 2^32-2 distinct texts; the empty text gets symbol 1 and symbols wrap at 2^32 (C54_empty_fails, C54_wrap_fails)."
  },
  {
   "property": "C55",
   "status": "proved",
   "theorems": [
    "Verif.Props.C55_epoch",
    "Verif.Props.C55_consecutive",
    "Verif.Props.C55_inverse",
    "Verif.Props.C55_order",
    "Verif.Props.C55_lengths",
    "Verif.Props.C55_leap",
    "Verif.Props.C55_weekday"
   ],
   "note": "All years; the calendar is specified by leap rule, month lengths and successor date in Time/Spec."
  },
  {
   "property": "C56",
   "status": "partial",
   "theorems": [
    "Verif.Props.C56_julian_partial",
    "Verif.Props.C56_julian_before_4800_fails"
   ],
   "note": "Proved from 1 March -4800 on; C56_julian_before_4800_fails shows that the code breaks before that date."
  },
  {
   "property": "C57",
   "status": "proved",
   "theorems": [
    "Verif.Props.C57_thursday_rule",
    "Verif.Props.C57_inverse",
    "Verif.Props.C57_inverse'"
   ],
   "note": "Thursday rule stated on day numbers; both directions of the inverse."
  },
  {
   "property": "C58",
   "status": "partial",
   "theorems": [
    "Verif.Props.C58_round_trip",
    "Verif.Props.C58_round_trip_wrapping",
    "Verif.Props.C58_round_trip_checked_partial",
    "Verif.Props.C58_smallest_instant_panics_fails"
   ],
   "note": "Exact arithmetic and wrapping (release) arithmetic proved for all instants; with overflow checks the first, incomplete day of the 64-bit range panics (witness C58_smallest_instant_panics_fails)."
  },
  {
   "property": "C59",
   "status": "proved",
   "theorems": [
    "Verif.Props.C59_offset",
    "Verif.Props.C59_from_local",
    "Verif.Props.C59_round_trip",
    "Verif.Props.C59_gap"
   ],
   "note": "For any transition table; C59_gap says what skipped local times map to."
  },
  {
   "property": "C60",
   "status": "proved",
   "theorems": [
    "Verif.Props.C60_add_span",
    "Verif.Props.C60_months_between",
    "Verif.Props.C60_antisymmetric"
   ],
   "note": "addSpan, monthsBetween, yearsBetween."
  },
  {
   "property": "C61",
   "status": "proved",
   "theorems": [
    "Verif.Props.C61_between",
    "Verif.Props.C61_add"
   ],
   "note": "Weekdays counted as the cardinality of a filtered interval."
  },
  {
   "property": "C62",
   "status": "proved",
   "theorems": [
    "Verif.Props.C62_round_trip",
    "Verif.Props.C62_injective",
    "Verif.Props.C62_range",
    "Verif.Props.C62_long_fraction_panics_fails"
   ],
   "note": "Round trip for every 64-bit value; C62_long_fraction_panics_fails is an input on which a checked build panics."
  },
  {
   "property": "C63",
   "status": "proved",
   "theorems": [
    "Verif.Props.C63_accepts",
    "Verif.Props.C63_round_trip",
    "Verif.Props.C63_round_trip_i64",
    "Verif.Props.C63_out_of_range_fails"
   ],
   "note": "Accepted language characterised exactly; round trip for all 64-bit instants; C63_out_of_range_fails: timestamps outside 64 bits wrap."
  },
  {
   "property": "C64",
   "status": "proved",
   "theorems": [
    "Verif.Props.C64_greater",
    "Verif.Props.C64_causality",
    "Verif.Props.C64_no_drift",
    "Verif.Props.C64_follows_wall",
    "Verif.Props.C64_counter_wraps_fails"
   ],
   "note": "Histories of fewer than 2^32 events (the logical counter is a u32); C64_counter_wraps_fails shows the limit is real."
  },
  {
   "property": "C65",
   "status": "proved",
   "theorems": [
    "Verif.Props.C65_lattice",
    "Verif.Props.C65_knowledge",
    "Verif.Props.C65_truth",
    "Verif.Props.C65_never_widens"
   ],
   "note": "Knowledge is exactly the intersection of the observations."
  },
  {
   "property": "C66",
   "status": "proved",
   "theorems": [
    "Verif.Props.C66_seconds",
    "Verif.Props.C66_nanos",
    "Verif.Props.C66_monotone",
    "Verif.Props.C66_offset"
   ],
   "note": "Seconds and nanoseconds, all instants."
  },
  {
   "property": "C67",
   "status": "partial",
   "theorems": [
    "Verif.Props.C67_orset_delta_loses_removal",
    "Verif.Props.C67_orset_delta_not_merge",
    "Verif.Props.C67_ormap_delta_not_merge",
    "Verif.Props.C67_rga_delta_loses_removal",
    "Verif.Props.C67_rga_delta_not_merge",
    "Verif.Props.C67_yata_delta_is_merge",
    "Verif.Props.C67_yata_delta_loses_removal"
   ],
   "note": "True for counters, multi-value registers (C02_delta_is_merge, C06_delta_is_merge) and for what YATA hands out; false for OR-Set, OR-Map, RGA and for YATA removals, with concrete witnesses."
  },
  {
   "property": "C68",
   "status": "proved",
   "theorems": [
    "Verif.Props.C68_fixed",
    "Verif.Props.C68_north_america",
    "Verif.Props.C68_europe",
    "Verif.Props.C68_sydney"
   ],
   "note": "All named zones, all years."
  },
  {
   "property": "C69",
   "status": "proved",
   "theorems": [
    "Verif.Props.C69_fifo_fair",
    "Verif.Props.C69_policy_pick",
    "Verif.Props.C69_priority_kept"
   ],
   "note": "Proved."
  },
  {
   "property": "C70",
   "status": "proved",
   "theorems": [
    "Verif.Props.C70_no_panic"
   ],
   "note": "Proved for seeded runs of programs within the stated limits."
  },
  {
   "property": "C71",
   "status": "partial",
   "theorems": [
    "Verif.Props.C71_payload_byte_partial",
    "Verif.Props.C71_checksum_bytes_partial",
    "Verif.Props.C71_length_byte_fails"
   ],
   "note": "Proved for every byte of every payload (CRC-32 changes when one byte changes) and any change of a checksum. A changed length byte is taken for a truncated entry and everything from there on is silently dropped (witness)."
  },
  {
   "property": "C72",
   "status": "partial",
   "theorems": [
    "Verif.Props.C72_sound_partial",
    "Verif.Props.C72_complete",
    "Verif.Props.C72_rejected",
    "Verif.Props.C72_index_fails",
    "Verif.Props.C72_nat_sound",
    "Verif.Props.C72_nat_fails"
   ],
   "note": "Soundness in every commutative ring (C72_sound_partial) for goals whose numbered variables are not negative, completeness over the integers (C72_complete), a counterexample for every rejection (C72_rejected), and soundness at Nat without subtraction (C72_nat_sound). Missing: goals that use the index -1000000 themselves, for which the claim is false (C72_index_fails), and Nat equations with subtraction, where ring laws accept x - y + y = x (C72_nat_fails). The goal is taken after kernel normalisation, which is not modelled."
  },
  {
   "property": "C73",
   "status": "partial",
   "theorems": [
    "Verif.Props.C73_elimination",
    "Verif.Props.C73_sound_partial",
    "Verif.Props.C73_complete",
    "Verif.Props.C73_index_fails"
   ],
   "note": "Elimination is exact (C73_elimination), accepted goals hold over Q and Z (C73_sound_partial), valid linear goals are accepted (C73_complete). Missing: goals that use interned indices themselves, where the claim is false (C73_index_fails)."
  },
  {
   "property": "C74",
   "status": "partial",
   "theorems": [
    "Verif.Props.C74_sound_partial",
    "Verif.Props.C74_unsat_sound",
    "Verif.Props.C74_exact",
    "Verif.Props.C74_order",
    "Verif.Props.C74_parity_fails",
    "Verif.Props.C74_even_fails",
    "Verif.Props.C74_index_fails"
   ],
   "note": "Accepted goals with hypotheses are true over Z (C74_sound_partial), unsatisfiable verdicts are right (C74_unsat_sound), the verdict is exactly rational unsatisfiability of the shifted system (C74_exact) and independent of the hash order (C74_order). Missing: the promised integer-specific contradictions, which the code does not find (C74_parity_fails, C74_even_fails), and goals that use interned indices (C74_index_fails)."
  },
  {
   "property": "C75",
   "status": "proved",
   "theorems": [
    "Verif.Props.C75_classes",
    "Verif.Props.C75_union_answer",
    "Verif.Props.C75_representative",
    "Verif.Props.C75_terminates",
    "Verif.Props.C75_compression"
   ],
   "note": "All histories of calls on existing elements; find on an element that was never made panics in the code and is excluded by InRange."
  },
  {
   "property": "C76",
   "status": "partial",
   "theorems": [
    "Verif.Props.C76_sound",
    "Verif.Props.C76_complete_partial",
    "Verif.Props.C76_late_fails",
    "Verif.Props.C76_typed_rejected"
   ],
   "note": "Soundness for all goals (C76_sound). Completeness when the applications of later hypotheses occur in the conclusion or the first hypothesis (C76_complete_partial). Missing: the general case, which is false (C76_late_fails); typed equations are never accepted (C76_typed_rejected)."
  },
  {
   "property": "C77",
   "status": "partial",
   "theorems": [
    "Verif.Props.C77_sound",
    "Verif.Props.C77_computes",
    "Verif.Props.C77_calls_fails",
    "Verif.Props.C77_overflow_rejected"
   ],
   "note": "Sound for all goals (C77_sound), exact on arithmetic with known values (C77_computes, heights below 500, no overflow or division by zero). The documented step bound is false (C77_calls_fails); arithmetic beyond 64 bits is rejected (C77_overflow_rejected)."
  },
  {
   "property": "C78",
   "status": "partial",
   "theorems": [
    "Verif.Props.C78_subtype",
    "Verif.Props.C78_equiv",
    "Verif.Props.C78_total",
    "Verif.Props.C78_max",
    "Verif.Props.C78_imax",
    "Verif.Props.C78_succ_partial",
    "Verif.Props.C78_overflow_fails",
    "Verif.Props.C78_capture_fails",
    "Verif.Props.C78_instantiate_partial",
    "Verif.Props.C78_instance_rank_partial",
    "Verif.Props.C78_instantiate_fails"
   ],
   "note": "Subtyping and equivalence proved exact (is_subtype_of accepts iff the rank inequality holds for all values of the variables) for universes whose variable names do not end in the made-up mark and that use SProp only at top level; max, imax exact; succ strictly above. Partial because in the code: instantiation with Prop or SProp breaks accepted inequalities (C78_instantiate_fails), a variable named u✦ is captured (C78_capture_fails), succ of the last u32 universe wraps to Type 0 (C78_overflow_fails). Instantiation with all other universes proved stable."
  },
  {
   "property": "C79",
   "status": "partial",
   "theorems": [
    "Verif.Props.C79_substitute_partial",
    "Verif.Props.C79_substitute_renaming_partial",
    "Verif.Props.C79_free_variables_partial",
    "Verif.Props.C79_fresh_name",
    "Verif.Props.C79_duplicate_fails"
   ],
   "note": "Proved for all terms in which no mutual block declares a name twice; for such blocks substitution is wrong (C79_duplicate_fails)."
  },
  {
   "property": "C80",
   "status": "partial",
   "theorems": [
    "Verif.Props.C80_accepts_partial",
    "Verif.Props.C80_complete_partial",
    "Verif.Props.C80_capture_fails",
    "Verif.Props.C80_shadow_fails",
    "Verif.Props.C80_symmetric_fails",
    "Verif.Props.C80_reflexive_fails",
    "Verif.Props.C80_hole_fails",
    "Verif.Props.C80_zero_fails"
   ],
   "note": "Sound on terms whose binders do not reuse or capture names, complete on terms the test supports; capture, shadowing, asymmetry, irreflexivity, hole and signed zero are proved failures."
  },
  {
   "property": "C81",
   "status": "partial",
   "theorems": [
    "Verif.Props.C81_lower",
    "Verif.Props.C81_same",
    "Verif.Props.C81_accepts",
    "Verif.Props.C81_beta_partial",
    "Verif.Props.C81_mutual_partial",
    "Verif.Props.C81_mutual_fails",
    "Verif.Props.C81_raise_partial",
    "Verif.Props.C81_raise_fails"
   ],
   "note": "Lowering is exact and beta agrees; mutual unfolding agrees for closed blocks only and raising is right without fixpoints only (both failures proved)."
  },
  {
   "property": "C82",
   "status": "partial",
   "theorems": [
    "Verif.Props.C82_closed_partial",
    "Verif.Props.C82_declared",
    "Verif.Props.C82_shadow_fails",
    "Verif.Props.C82_hole_fails",
    "Verif.Props.C82_projections_fails"
   ],
   "note": "The full claim is false: certificates for False are accepted (shadowing, holes) and so is an equation of different functions; proved here: accepted terms are closed and declared names get their declared types."
  },
  {
   "property": "C83",
   "status": "partial",
   "theorems": [
    "Verif.Props.C83_fold_partial",
    "Verif.Props.C83_checked_plain",
    "Verif.Props.C83_text_plus_zero_fails",
    "Verif.Props.C83_float_one_fails",
    "Verif.Props.C83_floor_division_fails",
    "Verif.Props.C83_list_times_zero_fails",
    "Verif.Props.C83_wide_mask_fails",
    "Verif.Props.C83_bool_name_fails",
    "Verif.Props.C83_full_fails"
   ],
   "note": "every program, hash order and run length, functions/closures/recursion included: if the checked run trips no check the folded program behaves identically (C83_fold_partial). The full statement is false: six witnesses."
  },
  {
   "property": "C84",
   "status": "partial",
   "theorems": [
    "Verif.Props.C84_propagate_partial",
    "Verif.Props.C84_redeclare_fails",
    "Verif.Props.C84_loop_variable_fails",
    "Verif.Props.C84_function_sets_global_fails",
    "Verif.Props.C84_full_fails"
   ],
   "note": "Proved for programs that declare new names only, whose functions assign no top-level name of the main program, and whose checked run trips no check of folding. In full false: redeclaration, loop variables, functions that assign globals."
  },
  {
   "property": "C85",
   "status": "partial",
   "theorems": [
    "Verif.Props.C85_dce_partial",
    "Verif.Props.C85_after_return",
    "Verif.Props.C85_error_erased_fails",
    "Verif.Props.C85_break_fails",
    "Verif.Props.C85_return_fails",
    "Verif.Props.C85_call_reads_fails",
    "Verif.Props.C85_closure_fails",
    "Verif.Props.C85_shadow_fails",
    "Verif.Props.C85_branch_scope_fails",
    "Verif.Props.C85_full_fails"
   ],
   "note": "Proved for runs without an error of tidy programs (settled blocks; a branch that is always taken declares nothing). In full false: errors are erased, Break, Return, calls in expressions, closures and shadowing between two assignments, and the lost scope of a constant branch."
  },
  {
   "property": "C86",
   "status": "partial",
   "theorems": [
    "Verif.Props.C86_terminates",
    "Verif.Props.C86_unifier",
    "Verif.Props.C86_most_general",
    "Verif.Props.C86_complete_partial",
    "Verif.Props.C86_kind_clash_fails",
    "Verif.Props.C86_compose_partial",
    "Verif.Props.C86_compose_fails"
   ],
   "note": "Termination, unifier and generality in full; completeness for terms without a name used as both free and bound variable (false otherwise, witness); composition for substitutions that do not overlap (false otherwise, witness)."
  },
  {
   "property": "C87",
   "status": "partial",
   "theorems": [
    "Verif.Props.C87_term_sound",
    "Verif.Props.C87_term_complete",
    "Verif.Props.C87_formula_sound_partial",
    "Verif.Props.C87_capture_partial",
    "Verif.Props.C87_formula_complete",
    "Verif.Props.C87_capture_fails",
    "Verif.Props.C87_temporal_fails",
    "Verif.Props.C87_apply_fails",
    "Verif.Props.C87_apply_partial"
   ],
   "note": "Terms in full. Formulas: soundness and completeness for first-order patterns, capture-freedom when no quantified name of the pattern is free in the target; witnesses for capture, temporal operators and the application of a match."
  },
  {
   "property": "C88",
   "status": "partial",
   "theorems": [
    "Verif.Props.C88_terminates_partial",
    "Verif.Props.C88_unifier_partial",
    "Verif.Props.C88_most_general_partial",
    "Verif.Props.C88_complete_partial",
    "Verif.Props.C88_shadowing_fails",
    "Verif.Props.C88_escape_fails",
    "Verif.Props.C88_world_fails"
   ],
   "note": "Formulas without quantifiers and worlds. With either the claim is false: witnesses."
  },
  {
   "property": "C89",
   "status": "proved",
   "theorems": [
    "Verif.Props.C89_exact",
    "Verif.Props.C89_term",
    "Verif.Props.C89_formula",
    "Verif.Props.C89_jumps",
    "Verif.Props.C89_cross_fails"
   ],
   "note": "Model of the whole of discrimination.rs over the term and formula models of C86-C88. C89_exact: retrieval returns precisely the values whose pattern the spec relation Align (written over patterns and queries, not keys) relates to the query, in the order and multiplicity inserted. C89_term / C89_formula: no pattern whose match succeeds is missed. C89_jumps: a wildcard edge skips exactly one subterm. C89_cross_fails: a retrieved candidate need not match (by design: an over-approximation)."
  },
  {
   "property": "C90",
   "status": "partial",
   "theorems": [
    "Verif.Props.C90_budgeted_partial",
    "Verif.Props.C90_reuse_after_unsat_fails",
    "Verif.Props.C90_unit_after_query_fails"
   ],
   "note": "For every formula, every history of solving calls on a loaded solver in which no solve_budgeted has answered Unsat, every budget and every answer of the heuristics: Sat models satisfy every clause, Unsat is right, no panic (C90_budgeted_partial). Missing: clauses added between calls and reuse after Unsat, for which the code is wrong (C90_reuse_after_unsat_fails, C90_unit_after_query_fails)."
  },
  {
   "property": "C91",
   "status": "partial",
   "theorems": [
    "Verif.Props.C91_assuming_partial",
    "Verif.Props.C91_clause_after_query_fails"
   ],
   "note": "As C90, for queries under assumptions (C91_assuming_partial). Missing: clauses added between queries, for which the code is wrong (C91_clause_after_query_fails)."
  },
  {
   "property": "C92",
   "status": "proved",
   "theorems": [
    "Verif.Props.C92_learned",
    "Verif.Props.C92_learned_after"
   ],
   "note": "Between calls (C92_learned) and at the end of each call, also an Unsat or interrupted one (C92_learned_after)."
  },
  {
   "property": "C93",
   "status": "proved",
   "theorems": [
    "Verif.Props.C93_assuming_ends",
    "Verif.Props.C93_budgeted_ends"
   ],
   "note": "Explicit bounds on the turns of both loops. solve_budgeted with budget 0 (unlimited) is not claimed."
  },
  {
   "property": "C94",
   "status": "partial",
   "theorems": [
    "Verif.Props.C94_solve_partial",
    "Verif.Props.C94_learned",
    "Verif.Props.C94_round",
    "Verif.Props.C94_round_keeps",
    "Verif.Props.C94_round_total",
    "Verif.Props.C94_solve_panics_fails",
    "Verif.Props.C94_subsume_panics_fails"
   ],
   "note": "Verdicts and log for solve with inprocessing, all heuristics and schedules; subsume/vivify/probe after a solve. solve and subsume can panic in compaction after a reduction (two witnesses); vivify and probe cannot. Not covered: inprocessing calls before the first solve, theory propagation, decision masks."
  },
  {
   "property": "C95",
   "status": "proved",
   "theorems": [
    "Verif.Props.C95_budgeted",
    "Verif.Props.C95_solve",
    "Verif.Props.C95_round",
    "Verif.Props.C95_steps"
   ],
   "note": "Proved for solve_budgeted, solve, the inprocessing rounds and, clause by clause, for every state; the solver is the model of C90 and C94 with heuristics as parameters, the checker is the model of C21."
  },
  {
   "property": "C96",
   "status": "partial",
   "theorems": [
    "Verif.Props.C96_certified_partial",
    "Verif.Props.C96_certified_letters_partial",
    "Verif.Props.C96_cdcl_entails_partial"
   ],
   "note": "For names without punctuation (C96_certified_partial) and for letters with any names (C96_certified_letters_partial) a verdict that is returned is exactly right and the certificate never fails. Missing: that the call returns (C94_solve_panics_fails shows solve can panic) and names with punctuation (C23_alias_fails)."
  },
  {
   "property": "C97",
   "status": "partial",
   "theorems": [
    "Verif.Props.C97_find_model_partial",
    "Verif.Props.C97_supported"
   ],
   "note": "For formulas over propositional letters a verdict that is returned is right and the bindings are exactly the letters, sorted. Missing: that the call returns; formulas with predicates are covered only by C97_supported (their atoms are not among the bindings the code returns)."
  },
  {
   "property": "C98",
   "status": "partial",
   "theorems": [
    "Verif.Props.C98_apply_partial",
    "Verif.Props.C98_closed_partial",
    "Verif.Props.C98_quantified_fails",
    "Verif.Props.C98_chain_fails",
    "Verif.Props.C98_capture_fails"
   ],
   "note": "Proved whenever no quantified name is replaced by anything but an untouched name and no replacement is captured (C98_apply_partial), in particular for closed replacements of unquantified variables (C98_closed_partial). Otherwise false: C98_quantified_fails, C98_chain_fails, C98_capture_fails. Application, constructors, match, fixpoints and events are not modelled."
  },
  {
   "property": "C99",
   "status": "partial",
   "theorems": [
    "Verif.Props.C99_accepted_partial",
    "Verif.Props.C99_while_fails",
    "Verif.Props.C99_repeat_fails",
    "Verif.Props.C99_condition_fails",
    "Verif.Props.C99_statement_fails",
    "Verif.Props.C99_expression_fails",
    "Verif.Props.C99_inner_block_fails"
   ],
   "note": "accepted programs that bind no name again in an inner block, give away in loops only what the loop body bound, and read no given name where the checker does not look; elsewhere false (loops, conditions, Push, Give inside expressions, inner Let): witnesses. Runs track ownership only, with conditions and loop counts arbitrary."
  },
  {
   "property": "C100",
   "status": "partial",
   "theorems": [
    "Verif.Props.C100_simplify_partial",
    "Verif.Props.C100_slice_bound_fails",
    "Verif.Props.C100_big_operand_fails",
    "Verif.Props.C100_full_fails"
   ],
   "note": "Proved for all expressions in which operators other than division and modulo raise no error of their own and slices whose list has a value raise none. False in general: a slice's bounds are dropped although they may fail, and bit operations on integers beyond 64 bits are taken to be total."
  },
  {
   "property": "C101",
   "status": "partial",
   "theorems": [
    "Verif.Props.C101_run_partial",
    "Verif.Props.C101_error_moved_fails",
    "Verif.Props.C101_call_changes_variable_fails",
    "Verif.Props.C101_full_fails"
   ],
   "note": "Proved for all runs that end without an error and whose calls change only variables whose contents the run has read. False in general: an error can move behind a Show, and a call that sets a global variable leaves a stale value in use."
  },
  {
   "property": "C102",
   "status": "partial",
   "theorems": [
    "Verif.Props.C102_repaired",
    "Verif.Props.C102_same_as_repaired",
    "Verif.Props.C102_intervals_partial",
    "Verif.Props.C102_loop_variable_fails",
    "Verif.Props.C102_loop_bound_fails",
    "Verif.Props.C102_break_fails",
    "Verif.Props.C102_bound_assigned_fails",
    "Verif.Props.C102_push_in_loop_fails",
    "Verif.Props.C102_set_length_fails",
    "Verif.Props.C102_float_fails",
    "Verif.Props.C102_call_dropped_fails",
    "Verif.Props.C102_error_dropped_fails",
    "Verif.Props.C102_overflow_fails",
    "Verif.Props.C102_shadow_fails",
    "Verif.Props.C102_function_sets_global_fails",
    "Verif.Props.C102_difference_fails",
    "Verif.Props.C102_remainder_fails",
    "Verif.Props.C102_panic_fails",
    "Verif.Props.C102_full_fails"
   ],
   "note": "The pass with the repairs named in Lang/IntervalSpec.lean is proved right for all programs whose checked run does not trip (C102_repaired); the pass itself on careful programs, a syntactic condition (C102_intervals_partial), and wherever it agrees with the repaired one (C102_same_as_repaired). The full statement is false; fourteen witnesses. Element intervals, Inspect, zones and concurrency are not modelled."
  },
  {
   "property": "C103",
   "status": "partial",
   "theorems": [
    "Verif.Props.C103_position",
    "Verif.Props.C103_position_beyond",
    "Verif.Props.C103_position_defined",
    "Verif.Props.C103_offset",
    "Verif.Props.C103_round_trip",
    "Verif.Props.C103_offset_place",
    "Verif.Props.C103_clamp_partial",
    "Verif.Props.C103_utf16_length",
    "Verif.Props.C103_line_start",
    "Verif.Props.C103_inside_character_fails",
    "Verif.Props.C103_clamp_fails",
    "Verif.Props.C103_carriage_return_fails",
    "Verif.Props.C103_full_fails"
   ],
   "note": "Line index. offset to position and back proved for every place of every text; offset never panics and always answers a place; position panics exactly inside a character (so the full statement is false); clamping to the end of the line proved for the last line only, false for the others. Lone carriage returns: witness."
  },
  {
   "property": "C104",
   "status": "partial",
   "theorems": [
    "Verif.Props.C104_edit",
    "Verif.Props.C104_history_partial",
    "Verif.Props.C104_version",
    "Verif.Props.C104_past_end_fails",
    "Verif.Props.C104_full_fails"
   ],
   "note": "Any history of open/edit/close over any number of documents, edits given as cuts of the text. Missing: characters beyond the end of a line, where the property is false."
  },
  {
   "property": "C105",
   "status": "partial",
   "theorems": [
    "Verif.Props.C105_settled_partial",
    "Verif.Props.C105_saved_partial",
    "Verif.Props.C105_found_partial",
    "Verif.Props.C105_rest_comes",
    "Verif.Props.C105_reopen_fails",
    "Verif.Props.C105_late_install_fails",
    "Verif.Props.C105_closed_fails",
    "Verif.Props.C105_reopen_save_fails",
    "Verif.Props.C105_lost_finding_fails",
    "Verif.Props.C105_hidden_fails",
    "Verif.Props.C105_full_fails"
   ],
   "note": "Proved over all interleavings in which a task past its check is not interrupted, no reopening while older analyses or checks run, and no analysis panics; rest always comes (measure). In full false: six histories as witnesses. Handlers up to their first await are one step."
  },
  {
   "property": "C106",
   "status": "proved",
   "theorems": [
    "Verif.Props.C106_tokens",
    "Verif.Props.C106_edits",
    "Verif.Props.C106_history",
    "Verif.Props.C106_order_needed"
   ],
   "note": "Tokens in text order decode to exactly the classified pieces; edits turn the old numbers into the new; any history of requests. Out-of-order pieces panic (C106_order_needed). The lexer and the classification are not modelled."
  },
  {
   "property": "C107",
   "status": "partial",
   "theorems": [
    "Verif.Props.C107_history",
    "Verif.Props.C107_boxes",
    "Verif.Props.C107_questions",
    "Verif.Props.C107_round_trip",
    "Verif.Props.C107_scalars_partial",
    "Verif.Props.C107_promoted_fails"
   ],
   "note": "proved for any allocator that gives free 48-bit addresses and any operators that are exact on whole numbers and do not tell NaN patterns apart: histories, ownership, round trip, as_int, truth and type. as_bool and as_float only when no truth value, float or nothing is changed in place (C107_promoted_fails shows why)."
  },
  {
   "property": "C108",
   "status": "partial",
   "theorems": [
    "Verif.Props.C108_shared_partial",
    "Verif.Props.C108_hoist_partial",
    "Verif.Props.C108_hoists",
    "Verif.Props.C108_holder_fails",
    "Verif.Props.C108_shadow_fails",
    "Verif.Props.C108_self_fails",
    "Verif.Props.C108_loop_fails",
    "Verif.Props.C108_guard_fails",
    "Verif.Props.C108_call_fails",
    "Verif.Props.C108_between_fails",
    "Verif.Props.C108_name_fails",
    "Verif.Props.C108_order_fails",
    "Verif.Props.C108_fails"
   ],
   "note": "False in full (witnesses C108_*_fails, C108_fails). Proved for every program meeting syntactic conditions (safeProgram): same end, same output. Hoisting of repeated computations out of one value proved for any state when the value has no and/or. Missing: programs that meet neither."
  },
  {
   "property": "C109",
   "status": "partial",
   "theorems": [
    "Verif.Props.C109_scoped_partial",
    "Verif.Props.C109_call_partial",
    "Verif.Props.C109_block_fails",
    "Verif.Props.C109_global_fails",
    "Verif.Props.C109_later_fails",
    "Verif.Props.C109_impure_fails",
    "Verif.Props.C109_early_fails",
    "Verif.Props.C109_leak_fails",
    "Verif.Props.C109_fails"
   ],
   "note": "In full false (C109_fails; six programs). Proved for every program whose functions come first, are each defined once and are well scoped, for runs that end: same error, same output. Missing: that programs that never end still never end; programs outside the conditions."
  },
  {
   "property": "C110",
   "status": "partial",
   "theorems": [
    "Verif.Props.C110_closed_partial",
    "Verif.Props.C110_capture_fails",
    "Verif.Props.C110_unbound_fails",
    "Verif.Props.C110_later_fails",
    "Verif.Props.C110_earlier_fails",
    "Verif.Props.C110_early_fails",
    "Verif.Props.C110_fails"
   ],
   "note": "In full false (C110_fails; five programs). Proved for every program whose functions come first, are each defined once and, if one expression, read only their parameters, for runs that end and not with a name without value. Missing: non-ending runs; programs outside the conditions."
  },
  {
   "property": "C111",
   "status": "partial",
   "theorems": [
    "Verif.Props.C111_exact_partial",
    "Verif.Props.C111_compare_partial",
    "Verif.Props.C111_catalogue",
    "Verif.Props.C111_standards",
    "Verif.Props.C111_convert",
    "Verif.Props.C111_round_trip",
    "Verif.Props.C111_linear_partial",
    "Verif.Props.C111_exponents_partial",
    "Verif.Props.C111_best",
    "Verif.Props.C111_overflow_fails",
    "Verif.Props.C111_affine_fails",
    "Verif.Props.C111_symbol_fails",
    "Verif.Props.C111_fails"
   ],
   "note": "Proved for whole exponents below 2^31 (all catalogue units) and fractional ones of bounded size; false when exponents overflow, and for numbers shown in units with an offset."
  },
  {
   "property": "C112",
   "status": "partial",
   "theorems": [
    "Verif.Props.C112_parse",
    "Verif.Props.C112_simd_partial",
    "Verif.Props.C112_simd_fails",
    "Verif.Props.C112_urn_fails",
    "Verif.Props.C112_write",
    "Verif.Props.C112_round_trip",
    "Verif.Props.C112_many",
    "Verif.Props.C112_many_length",
    "Verif.Props.C112_many_round_partial",
    "Verif.Props.C112_empty_fails",
    "Verif.Props.C112_made",
    "Verif.Props.C112_reports",
    "Verif.Props.C112_v7",
    "Verif.Props.C112_v7_sorted_partial",
    "Verif.Props.C112_v7_sorted_fails",
    "Verif.Props.C112_v1",
    "Verif.Props.C112_v6",
    "Verif.Props.C112_v6_sorted_partial"
   ],
   "note": "The portable reader accepts exactly the specified spellings; the vector reader the same on texts without control characters 16 to 25, which it reads as digits. Writing, round trips, packed runs (one record or more), version and variant bits, fields and sorting are proved for all identifiers; sorting only while times fit in 48 or 60 bits. Missing: blanks around the text, digests."
  },
  {
   "property": "C113",
   "status": "partial",
   "theorems": [
    "Verif.Props.C113_calls_partial",
    "Verif.Props.C113_chain_partial",
    "Verif.Props.C113_refused",
    "Verif.Props.C113_escape_refused",
    "Verif.Props.C113_false_fails",
    "Verif.Props.C113_endless_fails"
   ],
   "note": "Proved: without type parameters, functions in constructors and mutual blocks, every recorded recursive call is on a constructor argument of the value the calling activation was entered with, chains of calls are bounded by the size of the first value, and direct or escaping self-calls are refused. Fails for types with parameters: a closed term of type False that runs forever is accepted."
  },
  {
   "property": "C114",
   "status": "partial",
   "theorems": [
    "Verif.Props.C114_same_partial",
    "Verif.Props.C114_variable",
    "Verif.Props.C114_names_fails",
    "Verif.Props.C114_alias_fails",
    "Verif.Props.C114_false_fails",
    "Verif.Props.C114_agreed_fails",
    "Verif.Props.C114_agreed_partial"
   ],
   "note": "The two guards agree on functions with distinct parameter names, head-normal parameter types and matches no wider than the parameter types (C114_same_partial); mutual blocks are not compared. Disproved: a closed proof of False passes both kernels and the cross-check (C114_false_fails); agreement is reported on terms both refuse (C114_agreed_fails); the guards differ on repeated names and abbreviated types."
  },
  {
   "property": "C115",
   "status": "partial",
   "theorems": [
    "Verif.Props.C115_positive",
    "Verif.Props.C115_monotone",
    "Verif.Props.C115_negative_refused",
    "Verif.Props.C115_definition_fails",
    "Verif.Props.C115_constructor_fails",
    "Verif.Props.C115_undo_fails",
    "Verif.Props.C115_redefine_fails",
    "Verif.Props.C115_inferred_partial",
    "Verif.Props.C115_undo_partial",
    "Verif.Props.C115_universes",
    "Verif.Props.C115_proposition",
    "Verif.Props.C115_recorded",
    "Verif.Props.C115_undeclared",
    "Verif.Props.C115_listed"
   ],
   "note": "The positivity check is characterised exactly and its accepted fields are monotone; the universe check is characterised by the sorts of the fields, and the constructor types a session records are the ones checked. A session can come to a proof of False in three ways (definition with a declared type, constructor of another type, redefinition), each proved. Left out: parameters and mutual blocks in commands, the derived recursor, the inside of elaboration and normalisation."
  },
  {
   "property": "C116",
   "status": "partial",
   "theorems": [
    "Verif.Props.C116_mirror",
    "Verif.Props.C116_identities",
    "Verif.Props.C116_certificate",
    "Verif.Props.C116_entry",
    "Verif.Props.C116_queens",
    "Verif.Props.C116_value_partial",
    "Verif.Props.C116_colouring_partial",
    "Verif.Props.C116_available_fails",
    "Verif.Props.C116_arguments_fails",
    "Verif.Props.C116_guard_fails",
    "Verif.Props.C116_panic_fails",
    "Verif.Props.C116_negative_fails",
    "Verif.Props.C116_range_fails"
   ],
   "note": "Proved: the mirror, the three identities for every width below 64 and every set of that width, so that the certificate passes at any width up to 63; the cut first row of any search whose count is symmetric (C116_entry), for all states, sizes up to 62 and enough fuel; the queens program as a whole, and the colouring program as a whole for every number of nodes and every non-negative number of colours, with its count. Missing: the full statement is false (six witnesses); the counted-loop form of the first row and other names and orders of the operands are covered by the model and the witnesses only."
  },
  {
   "property": "C117",
   "status": "partial",
   "theorems": [
    "Verif.Props.C117_loop_partial",
    "Verif.Props.C117_defer_partial",
    "Verif.Props.C117_init_partial",
    "Verif.Props.C117_steady",
    "Verif.Props.C117_program_partial",
    "Verif.Props.C117_order_fails",
    "Verif.Props.C117_defer_fails",
    "Verif.Props.C117_let_fails",
    "Verif.Props.C117_limit_fails",
    "Verif.Props.C117_call_fails",
    "Verif.Props.C117_float_fails",
    "Verif.Props.C117_recursion_partial",
    "Verif.Props.C117_word",
    "Verif.Props.C117_chunk_word",
    "Verif.Props.C117_untouched",
    "Verif.Props.C117_recursion_fails"
   ],
   "note": "Proved: the formulas of counting, summing and doubling loops and the deferred remainder leave the state the loop leaves, for every state, start, limit and enough fuel (C117_loop_partial, C117_defer_partial); initial values found across statements without calls (C117_init_partial); whole programs with one such loop between statements without calls, whatever the pass finds (C117_program_partial); solved recursions for every argument when the base value is not negative (C117_recursion_partial); no step of a solved recursion's formula leaves the numbers of 64 bits (C117_word) and functions not on numbers are left alone (C117_untouched). Missing: the full statement is false (seven witnesses); several loops in one program, loops inside functions and branches, and the pass composed over a program with recursions are not put together into one theorem."
  },
  {
   "property": "C118",
   "status": "partial",
   "theorems": [
    "Verif.Props.C118_above",
    "Verif.Props.C118_once",
    "Verif.Props.C118_leaf_partial",
    "Verif.Props.C118_queens",
    "Verif.Props.C118_place_fails",
    "Verif.Props.C118_limit_fails",
    "Verif.Props.C118_changed_fails",
    "Verif.Props.C118_start_fails",
    "Verif.Props.C118_after_fails",
    "Verif.Props.C118_show_fails"
   ],
   "note": "Proved: the pass adds one statement and calls above the last level return what they returned (C118_above); at the last level both functions return the constant times the members of the set, if the call in the loop has the level and the limit in their places, the set is no negative number and nothing but values of variables happens from the definition of the set to the return (C118_leaf_partial); the queens benchmark prints the same on all boards up to 62 columns (C118_queens). Missing: the full statement is false (six witnesses); functions and programs other than the benchmark are not put together from the last level and the levels above into one theorem; negative sets."
  },
  {
   "property": "C119",
   "status": "partial",
   "theorems": [
    "Verif.Props.C119_encoder_partial",
    "Verif.Props.C119_no_alarm",
    "Verif.Props.C119_report",
    "Verif.Props.C119_overflow_fails",
    "Verif.Props.C119_skipped_fails",
    "Verif.Props.C119_and_fails",
    "Verif.Props.C119_not_fails",
    "Verif.Props.C119_agrees_fails"
   ],
   "note": "Proved: every typed straight-line program is encoded and, if no operator leaves 64 bits, the error term and the outputs are what the interpreter does (C119_encoder_partial), so the validator raises no false alarm on them (C119_no_alarm); a report of agreement on any program means that the error term is right and, if the run succeeded, the outputs too (C119_report). Missing: beyond 64 bits, in divisions that `and` and `or` skip and for `and`, `or` and `not` on integers the encoder is wrong (C119_overflow_fails, C119_skipped_fails, C119_and_fails, C119_not_fails), and agreement on a failing run ignores what it printed (C119_agrees_fails); pipes, tasks and the seeded mode are not modelled."
  },
  {
   "property": "C120",
   "status": "partial",
   "theorems": [
    "Verif.Props.C120_run",
    "Verif.Props.C120_run_or_exit",
    "Verif.Props.C120_division_partial",
    "Verif.Props.C120_never_wrong",
    "Verif.Props.C120_wide_fails",
    "Verif.Props.C120_shift",
    "Verif.Props.C120_shift_chosen",
    "Verif.Props.C120_magic",
    "Verif.Props.C120_jit",
    "Verif.Props.C120_jit_exit",
    "Verif.Props.C120_spec"
   ],
   "note": "Division by literals is proved for dividends of at most 64 bits; longer dividends get the right value or an error (C120_never_wrong), and C120_wide_fails shows the error where the interpreter has a value. The two-operand integer operations of the JIT reference model and their solver specifications are covered in full, and whole integer programs of it are compared with exact arithmetic (C120_run, C120_run_or_exit). The machine code is not modelled and the facts of the analysis are hypotheses."
  },
  {
   "property": "C121",
   "status": "partial",
   "theorems": [
    "Verif.Props.C121_propagate_partial",
    "Verif.Props.C121_shape",
    "Verif.Props.C121_trim",
    "Verif.Props.C121_sweep",
    "Verif.Props.C121_done",
    "Verif.Props.C121_pass_partial",
    "Verif.Props.C121_increment_fails",
    "Verif.Props.C121_copy_fails",
    "Verif.Props.C121_trim_frame",
    "Verif.Props.C121_sweep_frame",
    "Verif.Props.C121_frame_partial",
    "Verif.Props.C121_nothing_new_partial"
   ],
   "note": "Proved for programs in which, after the first phase, no remembered operation writes its own operand: same word, same fuel, same contents of every slot that is not scratch; C121_increment_fails and C121_copy_fails show wrong results otherwise."
  },
  {
   "property": "C122",
   "status": "partial",
   "theorems": [
    "Verif.Props.C122_words_partial",
    "Verif.Props.C122_floats_partial",
    "Verif.Props.C122_nan_fails"
   ],
   "note": "Proved for words, and for floats where the jump is JumpIfFalse, the comparison is an equality or both operands are numbers; C122_nan_fails shows the wrong jump otherwise. The conditions under which the two are fused are not modelled."
  }
 ]
}