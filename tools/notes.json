{
 "C15": {
  "status": "partial",
  "note": "The full statement is FALSE of the code: C15_refuted_len / C15_refuted_contents exhibit a failed insertion that leaves len() one too high, and one that loses half the entries. C15_failed_insert_partial proves what does hold; missing: nothing provable, the code violates the rest."
 },
 "C71": {
  "note": "The budgets range over all panics: in call i the (c_i + 1)-th comparison panics. peek/next of the underlying iterators run no user code."
 },
 "C72": {
  "note": "Per call an arbitrary sequence of functions K -> K -> Option Ordering answers its comparisons (none: panic), so stateful and inconsistent orders are covered. A panic inside append or split_off ends the run here; C65 and C68 say what happens there."
 },
 "C73": {
  "note": "Theorems hold for every way of taking the calls apart into single accesses (TakesApart); C73_exists shows there is one. A thread's clone of a map shared with others is not covered (clone of its own maps is)."
 },
 "C74": {
  "note": "'The call makes at most B comparisons' is stated as: two sequences of comparison answers that agree on their first B members give the same answer, maps, memory and panics. In every state reached by a program whose comparisons answer anything. The set-algebra iterators' totals are not in this claim (C71 and C55 cover their termination)."
 },
 "C75": {
  "note": "size_hint and len are one field in the model, as in the code. Writes go through the k-th reference handed out; writes through a reference while the iterator is printed are excluded by the borrow checker and need no model."
 },
 "C76": {
  "note": "A panic of a closure is an answer (unwound) after which the entry is gone; what the closure had written before is kept. Failed allocations inside the calls are C15/C63. The key owned by a vacant entry is a pure value in the model; that unwinding drops it once is Rust's."
 },
 "C77": {
  "note": "C77_try_insert, C77_extend, C77_collect, C77_append for any key order and allocator; the _history versions give the lists. A second panic while unwinding aborts the process and is not modelled. The destructors of the arguments themselves when memory is refused are left out."
 },
 "C78": {
  "note": "C78_any_order for any element order and allocator, C78_history for lawful orders. The operators' `Clone` is a pure function returning an equal element (it does not panic here; panicking clones are C62, C70)."
 },
 "C79": {
  "note": "C79_any_order for any key order, C79_history for lawful orders. The user's comparisons are total functions here (panicking ones: C70 covers the ordering used inside the tree)."
 },
 "C80": {
  "note": "C80_readers is the general theorem about threads that only look, C80_maps and C80_sets its instances. Threads with maps of their own that change are C73."
 },
 "C81": {
  "note": "C81_exact says that the defect of C54 is the only one. A second panic while unwinding aborts the process; the model goes on, which is stronger."
 },
 "C82": {
  "note": "C82_spares and C82_unchanged for every order and allocator; the C73 theorems speak about programs that include copying calls; C82_snapshot and C82_contents say what the copies hold."
 },
 "C83": {
  "note": "C83_safe for every order and allocator, C83_answers against a small relation on lists (Op.allowed), C83_repair for try_clone. Which entries a failed insertion loses is left open (a sublist), as in C15/C16. A program that ends in a panic (extend, clone, append out of memory) is only shown free of undefined behaviour up to it."
 },
 "C84": {
  "note": "C84_one_stretch: the map. C84_one_call: one failing insertion (try_insert, or_try_insert, or_try_insert_with, replace) at any point of a program that goes on after failures: the stretch, what range still sees, the tree nobody owns, and every allocated node accounted for. C84_programs: whole programs, any key order."
 },
 "C85": {
  "note": "C85_iterators, C85_predicates, C85_operators; any comparison function. Specification of the costs: Verif/SpecAlgCost.lean."
 },
 "C86": {
  "note": "C86_defined, C86_any_order, C86_history, C86_stops, C86_memory; C86_determined and C86_calls are about the specification. Programs stop at a failed insertion (going on after one is C83)."
 },
 "C87": {
  "note": "C87_defined, C87_any_order, C87_history, C87_stops, C87_memory; C87_clones and C87_determined are about the specification. The undefined case is that of C64."
 },
 "C88": {
  "note": "C88_no_ub, C88_no_race, C88_ends, C88_alone, C88_any_order, C88_history, C88_memory; C88_determined is about the specification; C88_exists shows that the hypothesis TakesApart can be met."
 },
 "C89": {
  "note": "C89_no_ub, C89_no_race, C89_ends, C89_alone, C89_any_order, C89_history, C89_memory; operators are allowed only if no request is refused after the start (hypothesis Roomy), which is where C64 says that they are defined; C89_determined is about the specification; C89_exists shows that the hypothesis TakesApart can be met."
 },
 "C90": {
  "note": "C90_iterators, C90_peeking_any_ord, C90_predicates, C90_operators, C90_operators_memory; an operator that runs out of memory after its first node is undefined behaviour undisturbed (C64), and then C90_operators says only that it is the same when not unwound before; dropping of the moved-out element in the unwound insertion is not an event of the model."
 }
}