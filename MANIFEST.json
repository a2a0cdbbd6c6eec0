{
 "claims": [
  {
   "property": "C01",
   "status": "proved",
   "theorems": [
    "Verif.Props.C01_insert_then_get"
   ],
   "note": ""
  },
  {
   "property": "C02",
   "status": "proved",
   "theorems": [
    "Verif.Props.C02_remove"
   ],
   "note": ""
  },
  {
   "property": "C03",
   "status": "proved",
   "theorems": [
    "Verif.Props.C03_memory",
    "Verif.Props.C03_history",
    "Verif.Props.C03_history_no_error"
   ],
   "note": ""
  },
  {
   "property": "C04",
   "status": "proved",
   "theorems": [
    "Verif.Props.C04_iteration"
   ],
   "note": ""
  },
  {
   "property": "C05",
   "status": "proved",
   "theorems": [
    "Verif.Props.C05_double_ended"
   ],
   "note": ""
  },
  {
   "property": "C06",
   "status": "proved",
   "theorems": [
    "Verif.Props.C06_len_exact"
   ],
   "note": ""
  },
  {
   "property": "C07",
   "status": "proved",
   "theorems": [
    "Verif.Props.C07_range_exact"
   ],
   "note": ""
  },
  {
   "property": "C08",
   "status": "proved",
   "theorems": [
    "Verif.Props.C08_range_panics"
   ],
   "note": ""
  },
  {
   "property": "C09",
   "status": "proved",
   "theorems": [
    "Verif.Props.C09_split_off"
   ],
   "note": ""
  },
  {
   "property": "C10",
   "status": "proved",
   "theorems": [
    "Verif.Props.C10_split_off_atomic"
   ],
   "note": ""
  },
  {
   "property": "C11",
   "status": "proved",
   "theorems": [
    "Verif.Props.C11_append",
    "Verif.Props.C11_append_returns"
   ],
   "note": ""
  },
  {
   "property": "C12",
   "status": "proved",
   "theorems": [
    "Verif.Props.C12_append_panics_only",
    "Verif.Props.C12_append_can_panic"
   ],
   "note": ""
  },
  {
   "property": "C13",
   "status": "proved",
   "theorems": [
    "Verif.Props.C13_try_clone",
    "Verif.Props.C13_try_clone_returns"
   ],
   "note": ""
  },
  {
   "property": "C14",
   "status": "proved",
   "theorems": [
    "Verif.Props.C14_insert_keeps_key",
    "Verif.Props.C14_replace_swaps"
   ],
   "note": ""
  },
  {
   "property": "C15",
   "status": "partial",
   "theorems": [
    "Verif.Props.C15_refuted_len",
    "Verif.Props.C15_refuted_contents",
    "Verif.Props.C15_failed_insert_partial",
    "Verif.Props.C15_failed_insert_then_iter_ub"
   ],
   "note": "The full statement is FALSE of the code: C15_refuted_len / C15_refuted_contents exhibit a failed insertion that leaves len() one too high, and one that loses half the entries. C15_failed_insert_partial proves what does hold; missing: nothing provable, the code violates the rest."
  },
  {
   "property": "C16",
   "status": "proved",
   "theorems": [
    "Verif.Props.C16_failed_insert"
   ],
   "note": ""
  },
  {
   "property": "C17",
   "status": "proved",
   "theorems": [
    "Verif.Props.C17_try_entry",
    "Verif.Props.C17_or_try_insert",
    "Verif.Props.C17_or_try_insert_with",
    "Verif.Props.C17_and_modify"
   ],
   "note": ""
  },
  {
   "property": "C18",
   "status": "proved",
   "theorems": [
    "Verif.Props.C18_occupied"
   ],
   "note": ""
  },
  {
   "property": "C19",
   "status": "proved",
   "theorems": [
    "Verif.Props.C19_occupancy",
    "Verif.Props.C19_min_len_violated"
   ],
   "note": ""
  },
  {
   "property": "C20",
   "status": "proved",
   "theorems": [
    "Verif.Props.C20_lookup_cost"
   ],
   "note": ""
  },
  {
   "property": "C21",
   "status": "proved",
   "theorems": [
    "Verif.Props.C21_no_ub"
   ],
   "note": ""
  },
  {
   "property": "C22",
   "status": "proved",
   "theorems": [
    "Verif.Props.C22_any_ord"
   ],
   "note": ""
  },
  {
   "property": "C23",
   "status": "proved",
   "theorems": [
    "Verif.Props.C23_partial_cmp",
    "Verif.Props.C23_eq",
    "Verif.Props.C23_cmp",
    "Verif.Props.C23_hash"
   ],
   "note": ""
  },
  {
   "property": "C24",
   "status": "proved",
   "theorems": [
    "Verif.Props.C24_iter_mut",
    "Verif.Props.C24_range_mut"
   ],
   "note": ""
  },
  {
   "property": "C25",
   "status": "proved",
   "theorems": [
    "Verif.Props.C25_extend",
    "Verif.Props.C25_extend_returns",
    "Verif.Props.C25_from_iter"
   ],
   "note": ""
  },
  {
   "property": "C26",
   "status": "proved",
   "theorems": [
    "Verif.Props.C26_difference",
    "Verif.Props.C26_intersection",
    "Verif.Props.C26_union",
    "Verif.Props.C26_symmetric_difference",
    "Verif.Props.C26_determined"
   ],
   "note": ""
  },
  {
   "property": "C27",
   "status": "proved",
   "theorems": [
    "Verif.Props.C27_predicates"
   ],
   "note": ""
  },
  {
   "property": "C28",
   "status": "proved",
   "theorems": [
    "Verif.Props.C28_size_hints"
   ],
   "note": ""
  },
  {
   "property": "C29",
   "status": "proved",
   "theorems": [
    "Verif.Props.C29_contains_get",
    "Verif.Props.C29_insert",
    "Verif.Props.C29_remove_take",
    "Verif.Props.C29_replace",
    "Verif.Props.C29_append_split",
    "Verif.Props.C29_extend",
    "Verif.Props.C29_from_iter",
    "Verif.Props.C29_empty",
    "Verif.Props.C29_clone"
   ],
   "note": ""
  },
  {
   "property": "C30",
   "status": "proved",
   "theorems": [
    "Verif.Props.C30_operators"
   ],
   "note": ""
  },
  {
   "property": "C31",
   "status": "proved",
   "theorems": [
    "Verif.Props.C31_try_reserve"
   ],
   "note": ""
  },
  {
   "property": "C32",
   "status": "proved",
   "theorems": [
    "Verif.Props.C32_try_push",
    "Verif.Props.C32_try_push_give_back"
   ],
   "note": ""
  },
  {
   "property": "C33",
   "status": "proved",
   "theorems": [
    "Verif.Props.C33_call",
    "Verif.Props.C33_builders"
   ],
   "note": ""
  },
  {
   "property": "C34",
   "status": "proved",
   "theorems": [
    "Verif.Props.C34_try_insert"
   ],
   "note": ""
  },
  {
   "property": "C35",
   "status": "proved",
   "theorems": [
    "Verif.Props.C35_try_append"
   ],
   "note": ""
  },
  {
   "property": "C36",
   "status": "proved",
   "theorems": [
    "Verif.Props.C36_try_resize",
    "Verif.Props.C36_try_resize_with"
   ],
   "note": ""
  },
  {
   "property": "C37",
   "status": "proved",
   "theorems": [
    "Verif.Props.C37_grow",
    "Verif.Props.C37_grow_refused",
    "Verif.Props.C37_shrink",
    "Verif.Props.C37_faithful"
   ],
   "note": ""
  },
  {
   "property": "C38",
   "status": "proved",
   "theorems": [
    "Verif.Props.C38_copy",
    "Verif.Props.C38_no_copy"
   ],
   "note": ""
  },
  {
   "property": "C39",
   "status": "proved",
   "theorems": [
    "Verif.Props.C39_call",
    "Verif.Props.C39_history"
   ],
   "note": ""
  },
  {
   "property": "C40",
   "status": "proved",
   "theorems": [
    "Verif.Props.C40_try_clone",
    "Verif.Props.C40_concat",
    "Verif.Props.C40_concat_overflow",
    "Verif.Props.C40_faithful"
   ],
   "note": ""
  },
  {
   "property": "C41",
   "status": "proved",
   "theorems": [
    "Verif.Props.C41_try_from_iterator",
    "Verif.Props.C41_refused_only_when_full"
   ],
   "note": ""
  },
  {
   "property": "C42",
   "status": "proved",
   "theorems": [
    "Verif.Props.C42_zero",
    "Verif.Props.C42_try_from_elem",
    "Verif.Props.C42_u8",
    "Verif.Props.C42_u8_agrees"
   ],
   "note": ""
  },
  {
   "property": "C43",
   "status": "proved",
   "theorems": [
    "Verif.Props.C43_read_up_to",
    "Verif.Props.C43_read_to_end",
    "Verif.Props.C43_read_into_try_vec"
   ],
   "note": ""
  },
  {
   "property": "C44",
   "status": "proved",
   "theorems": [
    "Verif.Props.C44_write",
    "Verif.Props.C44_write_room"
   ],
   "note": ""
  },
  {
   "property": "C45",
   "status": "proved",
   "theorems": [
    "Verif.Props.C45_fits",
    "Verif.Props.C45_correct",
    "Verif.Props.C45_exceeds"
   ],
   "note": ""
  },
  {
   "property": "C46",
   "status": "proved",
   "theorems": [
    "Verif.Props.C46_try_new",
    "Verif.Props.C46_inexact",
    "Verif.Props.C46_try_clone"
   ],
   "note": ""
  },
  {
   "property": "C47",
   "status": "proved",
   "theorems": [
    "Verif.Props.C47_stable",
    "Verif.Props.C47_zst",
    "Verif.Props.C47_unstable",
    "Verif.Props.C47_arc_clone"
   ],
   "note": ""
  },
  {
   "property": "C48",
   "status": "proved",
   "theorems": [
    "Verif.Props.C48_insert",
    "Verif.Props.C48_remove",
    "Verif.Props.C48_iter",
    "Verif.Props.C48_history",
    "Verif.Props.C48_with_capacity"
   ],
   "note": ""
  },
  {
   "property": "C49",
   "status": "proved",
   "theorems": [
    "Verif.Props.C49_try_clone",
    "Verif.Props.C49_faithful"
   ],
   "note": ""
  },
  {
   "property": "C50",
   "status": "proved",
   "theorems": [
    "Verif.Props.C50_prim",
    "Verif.Props.C50_option",
    "Verif.Props.C50_box",
    "Verif.Props.C50_vec",
    "Verif.Props.C50_hash_map",
    "Verif.Props.C50_tree_map",
    "Verif.Props.C50_keys",
    "Verif.Props.C50_nested"
   ],
   "note": ""
  },
  {
   "property": "C51",
   "status": "proved",
   "theorems": [
    "Verif.Props.C51_owned",
    "Verif.Props.C51_drop",
    "Verif.Props.C51_into_iter",
    "Verif.Props.C51_history"
   ],
   "note": ""
  },
  {
   "property": "C52",
   "status": "proved",
   "theorems": [
    "Verif.Props.C52_links",
    "Verif.Props.C52_descend_ascend"
   ],
   "note": ""
  },
  {
   "property": "C53",
   "status": "proved",
   "theorems": [
    "Verif.Props.C53_no_ub",
    "Verif.Props.C53_storage",
    "Verif.Props.C53_slice_insert",
    "Verif.Props.C53_slice_remove"
   ],
   "note": ""
  },
  {
   "property": "C54",
   "status": "proved",
   "theorems": [
    "Verif.Props.C54_shrink_not_panic_safe",
    "Verif.Props.C54_state"
   ],
   "note": ""
  },
  {
   "property": "C55",
   "status": "proved",
   "theorems": [
    "Verif.Props.C55_set_any_ord"
   ],
   "note": ""
  },
  {
   "property": "C56",
   "status": "proved",
   "theorems": [
    "Verif.Props.C56_views"
   ],
   "note": ""
  },
  {
   "property": "C57",
   "status": "proved",
   "theorems": [
    "Verif.Props.C57_algebra_views"
   ],
   "note": ""
  },
  {
   "property": "C58",
   "status": "proved",
   "theorems": [
    "Verif.Props.C58_leaf",
    "Verif.Props.C58_internal",
    "Verif.Props.C58_keys",
    "Verif.Props.C58_overaligned"
   ],
   "note": ""
  },
  {
   "property": "C59",
   "status": "proved",
   "theorems": [
    "Verif.Props.C59_insert",
    "Verif.Props.C59_insert_succeeds",
    "Verif.Props.C59_replace",
    "Verif.Props.C59_entry",
    "Verif.Props.C59_or_insert",
    "Verif.Props.C59_extend",
    "Verif.Props.C59_split_off",
    "Verif.Props.C59_try_clone",
    "Verif.Props.C59_append",
    "Verif.Props.C59_quiet",
    "Verif.Props.C59_memory"
   ],
   "note": ""
  },
  {
   "property": "C60",
   "status": "proved",
   "theorems": [
    "Verif.Props.C60_footprint",
    "Verif.Props.C60_memory"
   ],
   "note": ""
  },
  {
   "property": "C61",
   "status": "proved",
   "theorems": [
    "Verif.Props.C61_insert",
    "Verif.Props.C61_entry",
    "Verif.Props.C61_remove",
    "Verif.Props.C61_enough",
    "Verif.Props.C61_lawless",
    "Verif.Props.C61_extend",
    "Verif.Props.C61_append",
    "Verif.Props.C61_append_returns",
    "Verif.Props.C61_append_enough",
    "Verif.Props.C61_append_usable"
   ],
   "note": ""
  },
  {
   "property": "C62",
   "status": "proved",
   "theorems": [
    "Verif.Props.C62_split_off",
    "Verif.Props.C62_split_off_lost",
    "Verif.Props.C62_split_off_returns",
    "Verif.Props.C62_split_off_witness",
    "Verif.Props.C62_remove_after_append_witness",
    "Verif.Props.C62_remove_after_oom_witness"
   ],
   "note": ""
  },
  {
   "property": "C63",
   "status": "proved",
   "theorems": [
    "Verif.Props.C63_drop_ub",
    "Verif.Props.C63_into_iter_ub",
    "Verif.Props.C63_others"
   ],
   "note": ""
  },
  {
   "property": "C64",
   "status": "proved",
   "theorems": [
    "Verif.Props.C64_extend",
    "Verif.Props.C64_from_iter"
   ],
   "note": ""
  },
  {
   "property": "C65",
   "status": "proved",
   "theorems": [
    "Verif.Props.C65_append",
    "Verif.Props.C65_append_history"
   ],
   "note": ""
  },
  {
   "property": "C66",
   "status": "proved",
   "theorems": [
    "Verif.Props.C66_no_ub",
    "Verif.Props.C66_calls",
    "Verif.Props.C66_history",
    "Verif.Props.C66_ends"
   ],
   "note": ""
  },
  {
   "property": "C67",
   "status": "proved",
   "theorems": [
    "Verif.Props.C67_try_clone",
    "Verif.Props.C67_ledger"
   ],
   "note": ""
  },
  {
   "property": "C68",
   "status": "proved",
   "theorems": [
    "Verif.Props.C68_split_off",
    "Verif.Props.C68_returns",
    "Verif.Props.C68_lost"
   ],
   "note": ""
  },
  {
   "property": "C69",
   "status": "proved",
   "theorems": [
    "Verif.Props.C69_no_ub",
    "Verif.Props.C69_returned",
    "Verif.Props.C69_enough",
    "Verif.Props.C69_enough_extend",
    "Verif.Props.C69_unwound",
    "Verif.Props.C69_history",
    "Verif.Props.C69_ends"
   ],
   "note": ""
  },
  {
   "property": "C70",
   "status": "proved",
   "theorems": [
    "Verif.Props.C70_into_iter",
    "Verif.Props.C70_history",
    "Verif.Props.C70_only_reads"
   ],
   "note": ""
  },
  {
   "property": "C71",
   "status": "proved",
   "theorems": [
    "Verif.Props.C71_algebra_unwind",
    "Verif.Props.C71_peeking_any_ord"
   ],
   "note": "The budgets range over all panics: in call i the (c_i + 1)-th comparison panics. peek/next of the underlying iterators run no user code."
  },
  {
   "property": "C72",
   "status": "proved",
   "theorems": [
    "Verif.Props.C72_no_ub",
    "Verif.Props.C72_history",
    "Verif.Props.C72_ends",
    "Verif.Props.C72_honest"
   ],
   "note": "Per call an arbitrary sequence of functions K -> K -> Option Ordering answers its comparisons (none: panic), so stateful and inconsistent orders are covered. A panic inside append or split_off ends the run here; C65 and C68 say what happens there."
  },
  {
   "property": "C73",
   "status": "proved",
   "theorems": [
    "Verif.Props.C73_no_ub",
    "Verif.Props.C73_no_race",
    "Verif.Props.C73_ends",
    "Verif.Props.C73_alone",
    "Verif.Props.C73_memory",
    "Verif.Props.C73_answers",
    "Verif.Props.C73_contents",
    "Verif.Props.C73_exists"
   ],
   "note": "Theorems hold for every way of taking the calls apart into single accesses (TakesApart); C73_exists shows there is one. A thread's clone of a map shared with others is not covered (clone of its own maps is)."
  },
  {
   "property": "C74",
   "status": "proved",
   "theorems": [
    "Verif.Props.C74_calls",
    "Verif.Props.C74_returns",
    "Verif.Props.C74_honest"
   ],
   "note": "'The call makes at most B comparisons' is stated as: two sequences of comparison answers that agree on their first B members give the same answer, maps, memory and panics. In every state reached by a program whose comparisons answer anything. The set-algebra iterators' totals are not in this claim (C71 and C55 cover their termination)."
  },
  {
   "property": "C75",
   "status": "proved",
   "theorems": [
    "Verif.Props.C75_iter_mut",
    "Verif.Props.C75_values_mut",
    "Verif.Props.C75_history",
    "Verif.Props.C75_range_mut",
    "Verif.Props.C75_range_panics",
    "Verif.Props.C75_looking"
   ],
   "note": "size_hint and len are one field in the model, as in the code. Writes go through the k-th reference handed out; writes through a reference while the iterator is printed are excluded by the borrow checker and need no model."
  },
  {
   "property": "C76",
   "status": "proved",
   "theorems": [
    "Verif.Props.C76_any_order",
    "Verif.Props.C76_history",
    "Verif.Props.C76_place",
    "Verif.Props.C76_panics"
   ],
   "note": "A panic of a closure is an answer (unwound) after which the entry is gone; what the closure had written before is kept. Failed allocations inside the calls are C15/C63. The key owned by a vacant entry is a pure value in the model; that unwinding drops it once is Rust's."
  },
  {
   "property": "C77",
   "status": "proved",
   "theorems": [
    "Verif.Props.C77_try_insert",
    "Verif.Props.C77_extend",
    "Verif.Props.C77_try_insert_history",
    "Verif.Props.C77_extend_history",
    "Verif.Props.C77_collect",
    "Verif.Props.C77_collect_history",
    "Verif.Props.C77_append",
    "Verif.Props.C77_append_history"
   ],
   "note": "C77_try_insert, C77_extend, C77_collect, C77_append for any key order and allocator; the _history versions give the lists. A second panic while unwinding aborts the process and is not modelled. The destructors of the arguments themselves when memory is refused are left out."
  },
  {
   "property": "C78",
   "status": "proved",
   "theorems": [
    "Verif.Props.C78_any_order",
    "Verif.Props.C78_history"
   ],
   "note": "C78_any_order for any element order and allocator, C78_history for lawful orders. The operators' `Clone` is a pure function returning an equal element (it does not panic here; panicking clones are C62, C70)."
  },
  {
   "property": "C79",
   "status": "proved",
   "theorems": [
    "Verif.Props.C79_any_order",
    "Verif.Props.C79_history"
   ],
   "note": "C79_any_order for any key order, C79_history for lawful orders. The user's comparisons are total functions here (panicking ones: C70 covers the ordering used inside the tree)."
  },
  {
   "property": "C80",
   "status": "proved",
   "theorems": [
    "Verif.Props.C80_readers",
    "Verif.Props.C80_maps",
    "Verif.Props.C80_sets"
   ],
   "note": "C80_readers is the general theorem about threads that only look, C80_maps and C80_sets its instances. Threads with maps of their own that change are C73."
  },
  {
   "property": "C81",
   "status": "proved",
   "theorems": [
    "Verif.Props.C81_call",
    "Verif.Props.C81_exact",
    "Verif.Props.C81_history",
    "Verif.Props.C81_into_iter",
    "Verif.Props.C81_builders",
    "Verif.Props.C81_iterator",
    "Verif.Props.C81_collect"
   ],
   "note": "C81_exact says that the defect of C54 is the only one. A second panic while unwinding aborts the process; the model goes on, which is stronger."
  },
  {
   "property": "C82",
   "status": "proved",
   "theorems": [
    "Verif.Props.C82_spares",
    "Verif.Props.C82_unchanged",
    "Verif.Props.C82_snapshot",
    "Verif.Props.C82_contents"
   ],
   "note": "C82_spares and C82_unchanged for every order and allocator; the C73 theorems speak about programs that include copying calls; C82_snapshot and C82_contents say what the copies hold."
  },
  {
   "property": "C83",
   "status": "proved",
   "theorems": [
    "Verif.Props.C83_safe",
    "Verif.Props.C83_answers",
    "Verif.Props.C83_repair"
   ],
   "note": "C83_safe for every order and allocator, C83_answers against a small relation on lists (Op.allowed), C83_repair for try_clone. Which entries a failed insertion loses is left open (a sublist), as in C15/C16. A program that ends in a panic (extend, clone, append out of memory) is only shown free of undefined behaviour up to it."
  },
  {
   "property": "C84",
   "status": "proved",
   "theorems": [
    "Verif.Props.C84_one_stretch",
    "Verif.Props.C84_programs",
    "Verif.Props.C84_one_call"
   ],
   "note": "C84_one_stretch: the map. C84_one_call: one failing insertion (try_insert, or_try_insert, or_try_insert_with, replace) at any point of a program that goes on after failures: the stretch, what range still sees, the tree nobody owns, and every allocated node accounted for. C84_programs: whole programs, any key order."
  },
  {
   "property": "C85",
   "status": "proved",
   "theorems": [
    "Verif.Props.C85_iterators",
    "Verif.Props.C85_predicates",
    "Verif.Props.C85_operators"
   ],
   "note": "C85_iterators, C85_predicates, C85_operators; any comparison function. Specification of the costs: Verif/SpecAlgCost.lean."
  },
  {
   "property": "C86",
   "status": "proved",
   "theorems": [
    "Verif.Props.C86_defined",
    "Verif.Props.C86_any_order",
    "Verif.Props.C86_history",
    "Verif.Props.C86_stops",
    "Verif.Props.C86_memory",
    "Verif.Props.C86_determined",
    "Verif.Props.C86_calls"
   ],
   "note": "C86_defined, C86_any_order, C86_history, C86_stops, C86_memory; C86_determined and C86_calls are about the specification. Programs stop at a failed insertion (going on after one is C83)."
  },
  {
   "property": "C87",
   "status": "proved",
   "theorems": [
    "Verif.Props.C87_defined",
    "Verif.Props.C87_any_order",
    "Verif.Props.C87_history",
    "Verif.Props.C87_stops",
    "Verif.Props.C87_memory",
    "Verif.Props.C87_clones",
    "Verif.Props.C87_determined"
   ],
   "note": "C87_defined, C87_any_order, C87_history, C87_stops, C87_memory; C87_clones and C87_determined are about the specification. The undefined case is that of C64."
  },
  {
   "property": "C88",
   "status": "proved",
   "theorems": [
    "Verif.Props.C88_no_ub",
    "Verif.Props.C88_no_race",
    "Verif.Props.C88_ends",
    "Verif.Props.C88_alone",
    "Verif.Props.C88_any_order",
    "Verif.Props.C88_history",
    "Verif.Props.C88_memory",
    "Verif.Props.C88_determined",
    "Verif.Props.C88_exists"
   ],
   "note": "C88_no_ub, C88_no_race, C88_ends, C88_alone, C88_any_order, C88_history, C88_memory; C88_determined is about the specification; C88_exists shows that the hypothesis TakesApart can be met."
  },
  {
   "property": "C89",
   "status": "proved",
   "theorems": [
    "Verif.Props.C89_no_ub",
    "Verif.Props.C89_no_race",
    "Verif.Props.C89_ends",
    "Verif.Props.C89_alone",
    "Verif.Props.C89_any_order",
    "Verif.Props.C89_history",
    "Verif.Props.C89_memory",
    "Verif.Props.C89_exists",
    "Verif.Props.C89_determined"
   ],
   "note": "C89_no_ub, C89_no_race, C89_ends, C89_alone, C89_any_order, C89_history, C89_memory; operators are allowed only if no request is refused after the start (hypothesis Roomy), which is where C64 says that they are defined; C89_determined is about the specification; C89_exists shows that the hypothesis TakesApart can be met."
  },
  {
   "property": "C90",
   "status": "proved",
   "theorems": [
    "Verif.Props.C90_iterators",
    "Verif.Props.C90_peeking_any_ord",
    "Verif.Props.C90_predicates",
    "Verif.Props.C90_operators",
    "Verif.Props.C90_operators_memory"
   ],
   "note": "C90_iterators, C90_peeking_any_ord, C90_predicates, C90_operators, C90_operators_memory; an operator that runs out of memory after its first node is undefined behaviour undisturbed (C64), and then C90_operators says only that it is the same when not unwound before; dropping of the moved-out element in the unwound insertion is not an event of the model."
  }
 ]
}