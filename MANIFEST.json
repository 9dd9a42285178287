{
 "claims": [
  {
   "property": "C01",
   "status": "proved",
   "theorems": [
    "Verif.C01_add",
    "Verif.C01_sub",
    "Verif.C01_mul",
    "Verif.C01_div",
    "Verif.C01_div_zero",
    "Verif.C01_int_operand"
   ],
   "note": "+,-,*,/ equal the exact rational result rounded once by Spec.fix; int operands via C01_int_operand."
  },
  {
   "property": "C02",
   "status": "proved",
   "theorems": [
    "Verif.C02_range",
    "Verif.C02_closed",
    "Verif.C02_constructor",
    "Verif.C02_renormalise",
    "Verif.C02_unique",
    "Verif.C02_unique_refuted"
   ],
   "note": "All inputs; exact description of equal representations (C02_unique)."
  },
  {
   "property": "C03",
   "status": "proved",
   "theorems": [
    "Verif.C03_print_parse",
    "Verif.C03_print_parse_exact",
    "Verif.C03_print_injective"
   ],
   "note": "decimal(str(x)) == x for every contract decimal and both notations; identical object for canonical values."
  },
  {
   "property": "C04",
   "status": "proved",
   "theorems": [
    "Verif.C04_transfer",
    "Verif.C04_ledger_step",
    "Verif.C04_ledger_history"
   ],
   "note": "Single transfer plus whole ledger histories of nonnegative transfers with supply below the cap."
  },
  {
   "property": "C05",
   "status": "proved",
   "theorems": [
    "Verif.C05_order",
    "Verif.C05_bool",
    "Verif.C05_int"
   ],
   "note": "Numeric order, int clamp, truthiness."
  },
  {
   "property": "C06",
   "status": "proved",
   "theorems": [
    "Verif.C06_exact",
    "Verif.C06_other",
    "Verif.C06_neg_exponent",
    "Verif.C06_refuted"
   ],
   "note": "All texts of the grammar, exact value in every case (C06_exact, C06_other, C06_neg_exponent)."
  },
  {
   "property": "C07",
   "status": "proved",
   "theorems": [
    "Verif.C07_refuted",
    "Verif.C07_same_bytes"
   ],
   "note": "Exact (iff), all contract decimals."
  },
  {
   "property": "C08",
   "status": "proved",
   "theorems": [
    "Verif.C08_roundtrip",
    "Verif.C08_exact",
    "Verif.C08_keys"
   ],
   "note": "decode(encode(v)) == v at JSON-text level for every storable value, any nesting, by mutual induction."
  },
  {
   "property": "C09",
   "status": "proved",
   "theorems": [
    "Verif.C09_injective"
   ],
   "note": "Corollary of the round trip."
  },
  {
   "property": "C10",
   "status": "proved",
   "theorems": [
    "Verif.C10_refuted",
    "Verif.C10_tagged"
   ],
   "note": "Exact (iff), all storable values."
  },
  {
   "property": "C11",
   "status": "proved",
   "theorems": [
    "Verif.C11_refuted",
    "Verif.C11_plain",
    "Verif.C11_dict",
    "Verif.C11_bytes",
    "Verif.C11_escape",
    "Verif.C11_not_json"
   ],
   "note": "All texts; all dicts with string keys and storable values, both directions."
  },
  {
   "property": "C12",
   "status": "proved",
   "theorems": [
    "Verif.C12_entries",
    "Verif.C12_string_tuples",
    "Verif.C12_variable_vs_entry",
    "Verif.C12_variables",
    "Verif.C12_refuted"
   ],
   "note": "Iff for all accepted indexes. The unrestricted claim is refuted (C12_refuted)."
  },
  {
   "property": "C13",
   "status": "proved",
   "theorems": [
    "Verif.C13_places",
    "Verif.C13_plain",
    "Verif.C13_refuted"
   ],
   "note": "Iff for all keys whose parts contain no separator characters; C13_refuted shows colliding accepted entries."
  },
  {
   "property": "C14",
   "status": "proved",
   "theorems": [
    "Verif.C14_limits",
    "Verif.C14_text",
    "Verif.C14_rejected_untouched",
    "Verif.C14_refuted"
   ],
   "note": "Iff for all indexes."
  },
  {
   "property": "C15",
   "status": "proved",
   "theorems": [
    "Verif.C15_variable",
    "Verif.C15_hash_set",
    "Verif.C15_hash_clear",
    "Verif.C15_reads",
    "Verif.C15_file",
    "Verif.C15_own_file",
    "Verif.C15_disjoint",
    "Verif.C15_refuted"
   ],
   "note": "All inputs, all contract names; C15_refuted shows the shared file."
  },
  {
   "property": "C16",
   "status": "proved",
   "theorems": [
    "Verif.C16_set",
    "Verif.C16_stays",
    "Verif.C16_delete",
    "Verif.C16_bypass",
    "Verif.C16_refuted"
   ],
   "note": "Writes in every caching state and through all histories, deletions before and after persistence, bypass."
  },
  {
   "property": "C17",
   "status": "proved",
   "theorems": [
    "Verif.C17_refines",
    "Verif.C17_no_delete",
    "Verif.C17_total",
    "Verif.C17_refuted"
   ],
   "note": "Full simulation for all histories (deletions deferred), exact without deletions, totality."
  },
  {
   "property": "C18",
   "status": "proved",
   "theorems": [
    "Verif.C18_commit_durable"
   ],
   "note": "All reachable states, plain keys, storable values."
  },
  {
   "property": "C19",
   "status": "proved",
   "theorems": [
    "Verif.C19_rollback"
   ],
   "note": "Unconditional, every driver state."
  },
  {
   "property": "C20",
   "status": "proved",
   "theorems": [
    "Verif.C20_pending",
    "Verif.C20_refuted",
    "Verif.C20_noop"
   ],
   "note": "C20_noop for all reachable states, C20_pending for all states with pending deltas; the intended undo is refuted."
  },
  {
   "property": "C21",
   "status": "proved",
   "theorems": [
    "Verif.C21_ordered",
    "Verif.C21_hard_apply"
   ],
   "note": "All reachable states; and with deltas left by earlier failed calls, in order (C21_ordered)."
  },
  {
   "property": "C22",
   "status": "proved",
   "theorems": [
    "Verif.C22_listing",
    "Verif.C22_refuted",
    "Verif.C22_items",
    "Verif.C22_uncached"
   ],
   "note": "Exact content of every listing, any prefix (C22_listing, C22_items); relation to get while nothing is cached (C22_uncached); C22_refuted."
  },
  {
   "property": "C23",
   "status": "proved",
   "theorems": [
    "Verif.C23_rejected",
    "Verif.C23_refuted",
    "Verif.C23_object"
   ],
   "note": "All states, values, meters; C23_refuted is the exception."
  },
  {
   "property": "C24",
   "status": "proved",
   "theorems": [
    "Verif.C24_reads",
    "Verif.C24_recorded",
    "Verif.C24_refuted"
   ],
   "note": "C24_recorded is exact for all histories on directories of plain keys; C24_reads relates it to committed values."
  },
  {
   "property": "C25",
   "status": "proved",
   "theorems": [
    "Verif.C25_crash_prefix",
    "Verif.C25_crash_complete",
    "Verif.C25_redo"
   ],
   "note": "Every prefix of the elementary disk operations of commit; redo converges. Atomicity and order of single attribute operations is the trusted disk model."
  },
  {
   "property": "C26",
   "status": "proved",
   "theorems": [
    "Verif.C26_evict",
    "Verif.C26_evict_history",
    "Verif.C26_tuple_refuted"
   ],
   "note": "Single evictions and whole histories, for storable values; tuples refute it outside (C26_tuple_refuted)."
  },
  {
   "property": "C27",
   "status": "proved",
   "theorems": [
    "Verif.C27_failed",
    "Verif.C27_visible",
    "Verif.C27_refuted"
   ],
   "note": "Disk, pending and reported writes after any failed transaction; reads per key (C27_visible). In-place changes of cached values do survive (C27_refuted)."
  },
  {
   "property": "C28",
   "status": "proved",
   "theorems": [
    "Verif.C28_failed",
    "Verif.C28_clean",
    "Verif.C28_independent"
   ],
   "note": "No events and at most the fee from a failed transaction (auto-commit on or off); nothing left in the driver even if execute raised; independent of records left by others."
  },
  {
   "property": "C29",
   "status": "proved",
   "theorems": [
    "Verif.C29_stamps",
    "Verif.C29_balance",
    "Verif.C29_negative_stamps_credit"
   ],
   "note": "Stamp bounds for all runs; exact new balance against rational arithmetic for nonnegative balances below the cap; float division is abstract. Also shows that negative stamps credit the sender."
  },
  {
   "property": "C30",
   "status": "proved",
   "theorems": [
    "Verif.C30_program",
    "Verif.C30_crossing_raises",
    "Verif.C30_transaction",
    "Verif.C30_refuted"
   ],
   "note": "All programs and transactions; the exception is part of the statement and shown real (C30_refuted)."
  },
  {
   "property": "C31",
   "status": "proved",
   "theorems": [
    "Verif.C31_bounded",
    "Verif.C31_stops",
    "Verif.C31_refuted",
    "Verif.C31_swallowed_refuted",
    "Verif.C31_load_refuted"
   ],
   "note": "All event sequences, so all prefixes of non-terminating runs; both exceptions shown real. Native code that runs long without line events is not modelled."
  },
  {
   "property": "C32",
   "status": "proved",
   "theorems": [
    "Verif.C32_reset",
    "Verif.C32_restart",
    "Verif.C32_independent",
    "Verif.C32_refuted"
   ],
   "note": "All histories of returning (or privately refused) transactions; exceptions shown real (C32_refuted, C38_refuted)."
  },
  {
   "property": "C33",
   "status": "proved",
   "theorems": [
    "Verif.C33_no_funds"
   ],
   "note": "Any program, any numeric balance below the cost: status 1, code irrelevant."
  },
  {
   "property": "C34",
   "status": "proved",
   "theorems": [
    "Verif.C34_private"
   ],
   "note": "Every name starting with \"__\"; state untouched apart from the cleared records."
  },
  {
   "property": "C35",
   "status": "proved",
   "theorems": [
    "Verif.C35_writes",
    "Verif.C35_refuted",
    "Verif.C35_mutate_refuted",
    "Verif.C35_submission_refuted"
   ],
   "note": "Per key, all programs; the three exceptions are shown real."
  },
  {
   "property": "C36",
   "status": "proved",
   "theorems": [
    "Verif.C36_lexical",
    "Verif.C36_transaction"
   ],
   "note": "Exact agreement of the whole run with a lexically scoped reference (context passed down the call tree, never popped) for every program nesting at most the stack capacity, and for whole transactions."
  },
  {
   "property": "C37",
   "status": "proved",
   "theorems": [
    "Verif.C37_call",
    "Verif.C37_direct",
    "Verif.C37_refuted"
   ],
   "note": "All worlds, owners of any type, bodies; C37_refuted with a leftover frame."
  },
  {
   "property": "C38",
   "status": "proved",
   "theorems": [
    "Verif.C38_empty",
    "Verif.C38_history",
    "Verif.C38_refuted",
    "Verif.C38_poisoned"
   ],
   "note": "All code without try (C40), all failure points, all histories; exceptions shown real; C38_poisoned."
  },
  {
   "property": "C39",
   "status": "proved",
   "theorems": [
    "Verif.C39_names",
    "Verif.C39_refuted"
   ],
   "note": "All trees, all positions. Identifiers that are not Name or Attribute nodes (function, argument, keyword and alias names) are not checked by the code and not claimed. C76 gives the converse."
  },
  {
   "property": "C40",
   "status": "proved",
   "theorems": [
    "Verif.C40_syntax",
    "Verif.C40_refuted"
   ],
   "note": "All trees, all positions. TryStar is not on the list (and astor cannot print it)."
  },
  {
   "property": "C41",
   "status": "proved",
   "theorems": [
    "Verif.C41_entry_points",
    "Verif.C41_refuted"
   ],
   "note": "All trees."
  },
  {
   "property": "C42",
   "status": "proved",
   "theorems": [
    "Verif.C42_wrapper",
    "Verif.C42_shadow_refuted",
    "Verif.C42_functions",
    "Verif.C42_reachable",
    "Verif.C42_refuted",
    "Verif.C42_constructor_refuted"
   ],
   "note": "All accepted trees, including those that define export or __export themselves."
  },
  {
   "property": "C43",
   "status": "proved",
   "theorems": [
    "Verif.C43_no_floats"
   ],
   "note": "All accepted trees; the other direction (each literal became decimal) too."
  },
  {
   "property": "C44",
   "status": "proved",
   "theorems": [
    "Verif.C44_bound",
    "Verif.C44_constructions",
    "Verif.C44_kept",
    "Verif.C44_refuted"
   ],
   "note": "All accepted trees, all constructions by name."
  },
  {
   "property": "C45",
   "status": "proved",
   "theorems": [
    "Verif.C45_names",
    "Verif.C45_refuted"
   ],
   "note": "All accepted trees, declared storage."
  },
  {
   "property": "C46",
   "status": "proved",
   "theorems": [
    "Verif.C46_make",
    "Verif.C46_arith",
    "Verif.C46_read",
    "Verif.C46_td_product_meaningless",
    "Verif.C46_td_product"
   ],
   "note": "Constructor, +, -, *int, comparison and readers against integer seconds; int arguments. Also shows timedelta*timedelta is meaningless."
  },
  {
   "property": "C47",
   "status": "proved",
   "theorems": [
    "Verif.C47_make",
    "Verif.C47_add",
    "Verif.C47_order",
    "Verif.C47_difference",
    "Verif.C47_first_second",
    "Verif.C47_delta_minus_datetime"
   ],
   "note": "Against a calendar specified by counting days; addition, order, difference. The only exception to b+(a-b)\u2248a (first second of year 1) is stated and shown."
  },
  {
   "property": "C48",
   "status": "proved",
   "theorems": [
    "Verif.C48_answers",
    "Verif.C48_transaction",
    "Verif.C48_reproducible",
    "Verif.C48_unseeded",
    "Verif.C48_refuted",
    "Verif.C48_language"
   ],
   "note": "Every random answer of every transaction equals a reference function (seed text specified independently), after all histories of returning transactions; the exception is shown real."
  },
  {
   "property": "C49",
   "status": "proved",
   "theorems": [
    "Verif.C49_range",
    "Verif.C49_full",
    "Verif.C49_zero"
   ],
   "note": "All generators and all k; every value of the range is attainable; k = 0 raises."
  },
  {
   "property": "C50",
   "status": "proved",
   "theorems": [
    "Verif.C50_names",
    "Verif.C50_contract",
    "Verif.C50_accepts",
    "Verif.C50_refuted"
   ],
   "note": "All names and states; the exception is exact and shown real (C50_refuted)."
  },
  {
   "property": "C51",
   "status": "proved",
   "theorems": [
    "Verif.C51_rules",
    "Verif.C51_refused",
    "Verif.C51_taken",
    "Verif.C51_indirect",
    "Verif.C51_tx",
    "Verif.C51_record",
    "Verif.C51_recorded",
    "Verif.C51_nested_refuted"
   ],
   "note": "All worlds, callers, names, sources, constructors; whole transactions; what is recorded for every constructor (C51_record)."
  },
  {
   "property": "C52",
   "status": "proved",
   "theorems": [
    "Verif.C52_running",
    "Verif.C52_tx",
    "Verif.C52_history",
    "Verif.C52_refuted",
    "Verif.C52_forged_refuted"
   ],
   "note": "All contract code (running and over transactions) and all histories under the stated assumptions, both shown necessary."
  },
  {
   "property": "C53",
   "status": "proved",
   "theorems": [
    "Verif.C53_only_developer",
    "Verif.C53_refused",
    "Verif.C53_only_record",
    "Verif.C53_refuted"
   ],
   "note": "All worlds; the collision through a name with a colon is shown real (C53_refuted)."
  },
  {
   "property": "C54",
   "status": "proved",
   "theorems": [
    "Verif.C54_emit",
    "Verif.C54_accepts",
    "Verif.C54_declare",
    "Verif.C54_transaction",
    "Verif.C54_refuted",
    "Verif.C54_language"
   ],
   "note": "All programs and transactions outside the stated exception, which is shown real."
  },
  {
   "property": "C55",
   "status": "proved",
   "theorems": [
    "Verif.C55_reject",
    "Verif.C55_accept",
    "Verif.C55_history",
    "Verif.C55_refuted"
   ],
   "note": "All values and types, all histories outside the stated exceptions, which are shown real."
  },
  {
   "property": "C56",
   "status": "proved",
   "theorems": [
    "Verif.C56_exact",
    "Verif.C56_hex",
    "Verif.C56_refuted"
   ],
   "note": "Iff, all strings; corollary for keys of plain letters and digits (C56_hex); C56_refuted."
  },
  {
   "property": "C57",
   "status": "proved",
   "theorems": [
    "Verif.C57_inputs",
    "Verif.C57_same",
    "Verif.C57_chain",
    "Verif.C57_refuted"
   ],
   "note": "Exact input bytes and iff for equal inputs, all strings (hash function itself abstract); C57_refuted."
  },
  {
   "property": "C58",
   "status": "proved",
   "theorems": [
    "Verif.C58_listing",
    "Verif.C58_any",
    "Verif.C58_exported"
   ],
   "note": "All accepted trees."
  },
  {
   "property": "C59",
   "status": "proved",
   "theorems": [
    "Verif.C59_success",
    "Verif.C59_failure",
    "Verif.C59_refuted"
   ],
   "note": "Every call, both outcomes; C59_refuted."
  },
  {
   "property": "C60",
   "status": "proved",
   "theorems": [
    "Verif.C60_readonly",
    "Verif.C60_reads",
    "Verif.C60_values",
    "Verif.C60_refuted"
   ],
   "note": "All states, operations and values; C60_refuted for defaults."
  },
  {
   "property": "C61",
   "status": "proved",
   "theorems": [
    "Verif.C61_imports",
    "Verif.C61_compiled",
    "Verif.C61_packages",
    "Verif.C61_accepts",
    "Verif.C61_refuted"
   ],
   "note": "All programs, all depths; both exceptions shown real."
  },
  {
   "property": "C62",
   "status": "proved",
   "theorems": [
    "Verif.C62_reach",
    "Verif.C62_refuted"
   ],
   "note": "All transactions after returning histories; host module names refuted."
  },
  {
   "property": "C63",
   "status": "proved",
   "theorems": [
    "Verif.C63_runs",
    "Verif.C63_first",
    "Verif.C63_sticky",
    "Verif.C63_refuted"
   ],
   "note": "Every call exactly (C63_runs), all histories (C63_sticky); C63_refuted."
  },
  {
   "property": "C64",
   "status": "proved",
   "theorems": [
    "Verif.C64_quick_write"
   ],
   "note": "All reachable storages, plain names, storable values, outside metered runs."
  },
  {
   "property": "C65",
   "status": "proved",
   "theorems": [
    "Verif.C65_time",
    "Verif.C65_bound",
    "Verif.C65_refuted"
   ],
   "note": "Every submission; the exception is exact (C65_bound) and shown real."
  },
  {
   "property": "C66",
   "status": "proved",
   "theorems": [
    "Verif.C66_names",
    "Verif.C66_refuted"
   ],
   "note": "All accepted trees: every such name is accounted for."
  },
  {
   "property": "C67",
   "status": "proved",
   "theorems": [
    "Verif.C67_sound",
    "Verif.C67_complete",
    "Verif.C67_refuted",
    "Verif.C67_listing",
    "Verif.C67_raises"
   ],
   "note": "All accepted trees: the listing is given exactly, and when it raises."
  },
  {
   "property": "C68",
   "status": "proved",
   "theorems": [
    "Verif.C68_effect",
    "Verif.C68_refuted"
   ],
   "note": "Exact effect on every plain key, all reachable states; C68_refuted."
  },
  {
   "property": "C69",
   "status": "proved",
   "theorems": [
    "Verif.C69_state",
    "Verif.C69_refuted"
   ],
   "note": "Exact content (iff), all reachable states; C69_refuted."
  },
  {
   "property": "C70",
   "status": "proved",
   "theorems": [
    "Verif.C70_listed",
    "Verif.C70_refuted"
   ],
   "note": "Iff, all reachable states; C70_refuted."
  },
  {
   "property": "C71",
   "status": "proved",
   "theorems": [
    "Verif.C71_full",
    "Verif.C71_file"
   ],
   "note": "Every driver state."
  },
  {
   "property": "C72",
   "status": "proved",
   "theorems": [
    "Verif.C72_flush",
    "Verif.C72_set",
    "Verif.C72_kept",
    "Verif.C72_refuted"
   ],
   "note": "flush from every state; set_submission_contract in both cases (C72_set, C72_kept); C72_refuted."
  },
  {
   "property": "C73",
   "status": "proved",
   "theorems": [
    "Verif.C73_arguments",
    "Verif.C73_same",
    "Verif.C73_refuted"
   ],
   "note": "All transactions and bodies; floats as Python prints them."
  },
  {
   "property": "C74",
   "status": "proved",
   "theorems": [
    "Verif.C74_true",
    "Verif.C74_raises",
    "Verif.C74_refuted"
   ],
   "note": "Iff for True and for raising, all strings; libsodium's check is a parameter. The module crypto.py imports only nacl (C74_refuted)."
  },
  {
   "property": "C75",
   "status": "proved",
   "theorems": [
    "Verif.C75_environment",
    "Verif.C75_refuted"
   ],
   "note": "All programs, all depths, after all returning histories; C75_refuted otherwise."
  },
  {
   "property": "C76",
   "status": "proved",
   "theorems": [
    "Verif.C76_accepted",
    "Verif.C76_name"
   ],
   "note": "All trees; both directions. ast.parse and astor.to_source are outside the model."
  },
  {
   "property": "C77",
   "status": "proved",
   "theorems": [
    "Verif.C77_neg",
    "Verif.C77_abs",
    "Verif.C77_pos",
    "Verif.C77_int",
    "Verif.C77_floordiv",
    "Verif.C77_mod",
    "Verif.C77_mod_range",
    "Verif.C77_zero"
   ],
   "note": "All contract decimals. ** and float() are not modelled."
  },
  {
   "property": "C78",
   "status": "proved",
   "theorems": [
    "Verif.C78_round",
    "Verif.C78_unique",
    "Verif.C78_round_to",
    "Verif.C78_escapes"
   ],
   "note": "All contract decimals, all digit counts."
  },
  {
   "property": "C79",
   "status": "proved",
   "theorems": [
    "Verif.C79_true",
    "Verif.C79_raises",
    "Verif.C79_contract",
    "Verif.C79_refuted",
    "Verif.C79_misuse",
    "Verif.C79_env"
   ],
   "note": "All namespaces and interfaces; the contract form for accepted contracts with plain top levels (imports, functions with ordinary parameters, storage declarations)."
  },
  {
   "property": "C80",
   "status": "proved",
   "theorems": [
    "Verif.C80_raises",
    "Verif.C80_callables",
    "Verif.C80_call",
    "Verif.C80_defaults",
    "Verif.C80_refuted",
    "Verif.C80_swallowed"
   ],
   "note": "All accepted contracts and calls; functions named like attributes of the client object (name, keys, now, ...) are not modelled."
  },
  {
   "property": "C81",
   "status": "proved",
   "theorems": [
    "Verif.C81_text",
    "Verif.C81_whole",
    "Verif.C81_refuted"
   ],
   "note": "All contract decimals, exact text."
  },
  {
   "property": "C82",
   "status": "proved",
   "theorems": [
    "Verif.C82_accepts",
    "Verif.C82_result",
    "Verif.C82_left",
    "Verif.C82_history",
    "Verif.C82_disjoint",
    "Verif.C82_nolint",
    "Verif.C82_refuted"
   ],
   "note": "All histories and trees (decorators being expressions)."
  },
  {
   "property": "C83",
   "status": "proved",
   "theorems": [
    "Verif.C83_attribute",
    "Verif.C83_committed",
    "Verif.C83_refuted"
   ],
   "note": "C83_attribute decides all four outcomes by whether keys are live in memory; C83_committed and C83_refuted show that committed values stop being attributes although get still reads them."
  },
  {
   "property": "C84",
   "status": "proved",
   "theorems": [
    "Verif.C84_oneByOne",
    "Verif.C84_quiet",
    "Verif.C84_reads",
    "Verif.C84_exclusive",
    "Verif.C84_progress",
    "Verif.C84_returns",
    "Verif.C84_refuted",
    "Verif.C84_mix"
   ],
   "note": "C84_oneByOne (linearization in return order at every cut of every schedule), C84_quiet, C84_reads, C84_exclusive, C84_progress, C84_returns; C84_refuted (a reader sees None during an overwrite) and C84_mix (two multi-key commits interleave) mark the limits. Opening files never fails and other processes are not modelled."
  },
  {
   "property": "C85",
   "status": "proved",
   "theorems": [
    "Verif.C85_submitted",
    "Verif.C85_unnamed",
    "Verif.C85_failed"
   ],
   "note": "C85_submitted (whole chain client -> executor -> submission contract -> Contract.submit -> driver, with fee deduction), C85_unnamed, C85_failed. Functions as source (closure_to_code_string) are not modelled. Constructors that submit the same name themselves are excluded here (see C51_nested_refuted)."
  },
  {
   "property": "C86",
   "status": "proved",
   "theorems": [
    "Verif.C86_undisturbed",
    "Verif.C86_agree",
    "Verif.C86_stable",
    "Verif.C86_refuted_listing",
    "Verif.C86_refuted_tuple",
    "Verif.C86_refuted_mutate"
   ],
   "note": "C86_agree, C86_undisturbed; C86_stable says which values are stable. Refuted without the provisos: C86_refuted_listing (Hash.all shows cached entries only: [5] against []), C86_refuted_tuple, C86_refuted_mutate."
  },
  {
   "property": "C87",
   "status": "proved",
   "theorems": [
    "Verif.C87_order",
    "Verif.C87_distinct",
    "Verif.C87_roundtrip",
    "Verif.C87_accepts",
    "Verif.C87_exact",
    "Verif.C87_errors",
    "Verif.C87_str",
    "Verif.C87_delta",
    "Verif.C87_refuted_delta_order"
   ],
   "note": "Model of CPython 3.11 _strptime restricted to numeric directives and ASCII digits; locale and time-zone directives are outside the model (their meaning depends on the host, a consensus hazard recorded in DESIGN.md). C87_refuted_delta_order: texts of timedeltas do not sort by length."
  },
  {
   "property": "C88",
   "status": "proved",
   "theorems": [
    "Verif.C88_convert",
    "Verif.C88_refuted"
   ],
   "note": "C88_refuted: concrete values on which convert_dict and decode differ."
  },
  {
   "property": "C89",
   "status": "proved",
   "theorems": [
    "Verif.C89_pow",
    "Verif.C89_units",
    "Verif.C89_exact",
    "Verif.C89_overflow",
    "Verif.C89_closed",
    "Verif.C89_pow_zero",
    "Verif.C89_zero_base",
    "Verif.C89_negative_base",
    "Verif.C89_refuted"
   ],
   "note": "C89_refuted: x ** 2 and x * x can differ in the last place. Powers with an exponent that is not whole are an arbitrary parameter (only closure and the exceptions for negative bases are claimed for them)."
  },
  {
   "property": "C90",
   "status": "proved",
   "theorems": [
    "Verif.C90_keys",
    "Verif.C90_length",
    "Verif.C90_files",
    "Verif.C90_iter",
    "Verif.C90_run_state",
    "Verif.C90_refuted"
   ],
   "note": "C90_refuted: a committed key is not found by a prefix of its full key (names are listed without their contract), and get_run_state shows None for a hash. Empty files left by reads of missing keys are not modelled."
  },
  {
   "property": "C91",
   "status": "proved",
   "theorems": [
    "Verif.C91_program",
    "Verif.C91_transaction",
    "Verif.C91_history",
    "Verif.C91_uncalled",
    "Verif.C91_own_storage",
    "Verif.C91_refuted_mutate"
   ],
   "note": "Hypotheses: code outside c holds no storage object of c (C39, C44, C60, C66 are about that), catches no exception (C40) and changes no object stored under c in place; what is pending when a block is applied are stable values under plain keys. C91_refuted_mutate: without the last one it is false: a function that returns a stored list lets its caller append to it, and the contract reads the longer list."
  },
  {
   "property": "C92",
   "status": "proved",
   "theorems": [
    "Verif.C92_function",
    "Verif.C92_transaction",
    "Verif.C92_history",
    "Verif.C92_refuted_negative",
    "Verif.C92_refuted_cap"
   ],
   "note": "The contract's source is transcribed as a program by hand (statement by statement, metered at arbitrary cost); code around it holds no storage object of the token contract and catches no exception, as in C91; senders and recipients have plain names; amounts are ints or contract decimals; fees are not negative. C92_refuted_negative and C92_refuted_cap show what happens outside these hypotheses."
  },
  {
   "property": "C93",
   "status": "proved",
   "theorems": [
    "Verif.C93_transaction",
    "Verif.C93_history",
    "Verif.C93_refuted"
   ],
   "note": "The language: Model/Lang.lean (syntax, compiler on it; compile_module shows that it agrees with the compiler model of C39-C44) and Model/Interp.lean (semantics). Left out: comprehensions, slices, f-strings, * arguments, in-place changes of lists and dicts, random.shuffle, choice and choices, enforce_interface, and passing storage objects inside containers; a program that does one of the last four ends with the exception unmodelled."
  },
  {
   "property": "C94",
   "status": "proved",
   "theorems": [
    "Verif.C94_code",
    "Verif.C94_execute",
    "Verif.C94_refuted"
   ],
   "note": "Same language as C93. A line costs what its compiled form costs."
  },
  {
   "property": "C95",
   "status": "proved",
   "theorems": [
    "Verif.C95_transfer",
    "Verif.C95_balance",
    "Verif.C95_seed",
    "Verif.C95_minted",
    "Verif.C95_transaction",
    "Verif.C95_conserved"
   ],
   "note": "Python's comparison and arithmetic are assumed to be those of ints and contract decimals on such operands (Arith); other operand types are left open. C95_transaction shows these transactions to be among those of C92, so that C92's theorem about histories applies to the contract as written. Negative amounts are not refused by the contract (C92_refuted_negative; example at the end of Props/TokenSource.lean)."
  },
  {
   "property": "C96",
   "status": "proved",
   "theorems": [
    "Verif.C96_genuine",
    "Verif.C96_guarded"
   ],
   "note": "Hypotheses, each with the counterexample that shows it is needed: names given to submission are plain (C52_refuted: a colon in a name), sources construct storage in declarations only (C93_refuted, C52_forged_refuted). Language contracts do not import `submission` (from there submit_contract is refused, C51). The round trip through astor, compile and marshal is the hypothesis RoundTrip. Fees are not paid out of the guarded contract (C91). Examples at the end of Props/Node.lean submit two contracts, call one through the other, apply the block and use both theorems on the result."
  },
  {
   "property": "C97",
   "status": "proved",
   "theorems": [
    "Verif.C97_deployed",
    "Verif.C97_unchanged",
    "Verif.C97_developer"
   ],
   "note": "Hypotheses as in C96 (plain names, sources that declare their storage, RoundTrip, fees out of a hash of a plain contract), plus: the driver does not bypass its cache (with bypass_cache pending writes are not read at all, C16), and no module called submission is on the host. Examples at the end of Props/Deploy.lean submit a contract with a constructor argument, read the value back through its exported function, and submit with missing arguments, which fails."
  },
  {
   "property": "C98",
   "status": "proved",
   "theorems": [
    "Verif.C98_sources",
    "Verif.C98_transaction"
   ],
   "note": "Hypotheses: as in C96/C97 (plain names, declared storage, RoundTrip, fees out of a hash of a plain contract, no host module called submission), decimal is a builtin, and sources are well named as in C94 (C94_refuted shows that the compiler's renaming changes the meaning otherwise). A line of source costs what its compiled form costs: the tracer counts bytecode lines, which the model takes as a parameter. The ideal node is in Spec/SourceNode.lean. The example submits a contract with a constructor, calls it, and reads the same value from the sources."
  },
  {
   "property": "C99",
   "status": "proved",
   "theorems": [
    "Verif.C99_events"
   ],
   "note": "Hypotheses as in C96/C97, and NoText (only string literals are strings: holds of Python, where b'', 1j and ... are no strings and decimal() gives decimals). Declarations with computed parameters (anything but literal dicts, class names and tuples of them) end with the exception `unmodelled` in the interpreter and are thus outside the claim. The example submits a contract with an event, calls it and shows the reported event, and a call with data of the wrong class, which fails."
  },
  {
   "property": "C100",
   "status": "proved",
   "theorems": [
    "Verif.C100_restart"
   ],
   "note": "C32 and C38 prove this for arbitrary programs under conditions that C38_refuted shows to be needed (a contract call refused while a module is loading leaves a frame behind). Here the conditions are discharged: contracts that the compiler accepts and the interpreter runs make no calls while a module loads and have no try statement, so that no condition on them is left. Programs outside the modelled language (Model/Lang.lean) are not covered."
  },
  {
   "property": "C101",
   "status": "proved",
   "theorems": [
    "Verif.C101_undisturbed",
    "Verif.C101_agree",
    "Verif.C101_refuted_listing"
   ],
   "note": "The node-level form of C86, with C86's conditions on code and on the context stack discharged for contracts in the modelled language (Model/Lang.lean). Hypotheses left (Spec/NodeReplica.lean, Orderly): arguments are fair values, configured fees are plain, the bounded interpreter finishes, and pending writes survive encoding at the block. Hash.all/clear mix cached and stored keys and so depend on the cache; the refutation is a concrete pair of nodes."
  },
  {
   "property": "C102",
   "status": "proved",
   "theorems": [
    "Verif.C102_finishes",
    "Verif.C102_bound",
    "Verif.C102_refuted_unmetered"
   ],
   "note": "Contracts in the modelled language (Model/Lang.lean). The step cut off is a traced line; that one line of Python (an operation on data, a range, a comprehension) itself ends is assumed of Python (Data functions are total). CPython's own recursion limit is not modelled: in the code it may cut recursion off earlier with an exception, which is another way to end. Loading (top levels) before the meter is started ends because imports are grounded (C103)."
  },
  {
   "property": "C103",
   "status": "proved",
   "theorems": [
    "Verif.C103_grounded",
    "Verif.C103_resolves",
    "Verif.C103_acyclic",
    "Verif.C103_refused"
   ],
   "note": "Imports at the top level of modules, which are the only import statements the language has (import statements directly in the body of a function are rejected by the linter; deeper ones, which it does not see, and importlib.import_module resolve at run time and are not part of this claim). The node's own submission contract is taken as given."
  },
  {
   "property": "C104",
   "status": "proved",
   "theorems": [
    "Verif.C104_enough",
    "Verif.C104_more"
   ],
   "note": "C104_enough is an equality of everything execute returns and leaves; C104_more is the case of the cap of executor.py:157-158. Costs of lines and memory readings are the same in both executions (they are parameters of the model). StampsDemo.runs: with fewer stamps than needed, or more than can be paid for, the transaction fails."
  },
  {
   "property": "C105",
   "status": "proved",
   "theorems": [
    "Verif.C105_depends",
    "Verif.C105_commute",
    "Verif.C105_disjoint",
    "Verif.C105_refuted_listing"
   ],
   "note": "C105_depends, C105_commute (in terms of the state), C105_disjoint (in terms of what the two calls return, successful or not). C105_refuted_listing shows that listings are a real exception: Hash.all() shows entries it does not report as read. The records on disk are assumed readable (every stored text decodes), because a read that raises is not recorded; the code of the transaction is the same in both states."
  },
  {
   "property": "C106",
   "status": "proved",
   "theorems": [
    "Verif.C106_unmetered",
    "Verif.C106_node",
    "Verif.C106_refuted"
   ],
   "note": "C106_unmetered for any code that catches nothing and swallows nothing; C106_node for every transaction of a node; C106_refuted: after the line limit strikes inside swallowing library code the results differ. auto_commit off (with it the fee is deducted after the commit)."
  },
  {
   "property": "C107",
   "status": "proved",
   "theorems": [
    "Verif.C107_settled",
    "Verif.C107_commit",
    "Verif.C107_refuted_pending",
    "Verif.C107_refuted_deleted",
    "Verif.C107_refuted_unpaid"
   ],
   "note": "C107_commit, C107_settled. Assumed for C107_commit: what is pending at the end can be stored (stable values, plain keys), the sender's balance is cached correctly, is not changed in place and is not deleted by the transaction. Each is needed: C107_refuted_pending (a failure under auto_commit also throws away what earlier transactions left pending), C107_refuted_deleted (the fee is taken from the deleted balance without auto_commit, from nothing with it), C107_refuted_unpaid (an exception during the fee deduction leaves the transaction's work on disk, unpaid)."
  },
  {
   "property": "C108",
   "status": "proved",
   "theorems": [
    "Verif.C108_schedule",
    "Verif.C108_joined",
    "Verif.C108_continue",
    "Verif.C108_joined_continue",
    "Verif.C108_refuted_deleted",
    "Verif.C108_refuted_unsaved"
   ],
   "note": "C108_schedule, C108_continue; C108_joined and C108_joined_continue for two nodes whose disks differ but show the same under plain keys (one of them joined from a snapshot). The states are those of a process with any history (Served). Assumed: the code lists no hash, changes no stored object in place and deletes nothing (C108_refuted_deleted: a deletion is only seen once it has been committed, so a node that commits in between reads None where the other one still reads the old value); keys read are plain; what is pending at a commit or an application can be stored; a restart happens with nothing pending (C108_refuted_unsaved: what is pending is lost) and no context frame left behind (C38)."
  },
  {
   "property": "C109",
   "status": "proved",
   "theorems": [
    "Verif.C109_any_order",
    "Verif.C109_disjoint"
   ],
   "note": "C109_any_order (apartness as: what is pending under the keys read by the one is not changed by the other; failed transactions included), C109_disjoint (apartness by the reported writes and reads; successful and failed transactions alike). Assumed as for C105: the code lists no hash and changes no stored object in place, no auto_commit, readable records on disk; each transaction on its own leaves an empty context stack (C38)."
  },
  {
   "property": "C110",
   "status": "proved",
   "theorems": [
    "Verif.C110_code",
    "Verif.C110_depends",
    "Verif.C110_any_order"
   ],
   "note": "C110_code (such code lists no hash, changes no stored object in place, clears nothing, catches nothing), C110_depends, C110_any_order. Assumed for the latter as for C105 and C109: no auto_commit, readable records on disk, an empty context stack after each trial. Contracts of the modelled language only (Model/Interp; what has no meaning there raises)."
  }
 ]
}