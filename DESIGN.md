# Formal model of fallible_collections in Lean 4

The crate (vcombey/fallible_collections, pinned commit, `/repo`, 7 200 lines of Rust) is modelled function by function as total,
computable Lean functions; the properties of `properties.jsonl` are theorems about those functions.  Core Lean only: no module
imports Mathlib.

## 1. How to read it

| what | where |
|------|-------|
| outcomes, allocator, unchecked access | `Verif/Exec.lean` |
| what a sorted association list answers (the specification of the map) | `Verif/Spec.lean`, `Verif/SetSpec.lean`, `Verif/ViewSpec.lean` |
| B-tree, level 1 (trees of lists) | `Verif/BTree/*.lean` (proofs in `BTree/Proofs`) |
| B-tree, level 2 (memory) | `Verif/Heap/*.lean` (proofs in `Heap/Proofs`) |
| vectors at the level of memory slots | `Verif/Vec/Raw.lean` (std's part), `Verif/Vec/Fallible.lean` (src/vec.rs), proofs in `Vec/Proofs*.lean` |
| specification of the vector calls | `Verif/Vec/Spec.lean` |
| Box, Rc, Arc, format, io, TryHashMap, nested try_clone | `Verif/Misc/*.lean` |
| **the property theorems** (named `Cxx_...`) with a concrete case beside each | `Verif/Props/*.lean` |

Every definition of the model cites the lines of `/repo` it models and states its own simplifications.  `tools/coverage.py` lists the
functions of `/repo/src` that no comment cites.

* **Allocator.** `Alloc := Nat → Bool`: the n-th allocation request from now on is granted or refused.  Theorems quantify over every such
  stream, i.e. over every allocation-failure schedule.  Capacity overflow in `Vec` is modelled separately (it is deterministic).
* **Undefined behaviour** (`get_unchecked` out of range, `unwrap_unchecked(None)`, `unreachable!`, a failing `debug_assert!`, reading an
  uninitialised slot, touching freed memory, a wrong deallocation layout) is an explicit outcome `Exec.ub`, never a default value.
  "No undefined behaviour" is the theorem that the outcome is not `ub`.
* **Panic / abort** (`expect("Out of Mem")`, `handle_alloc_error`, range panics, user closures) is the explicit outcome `Exec.panic`.
* **B-tree, level 1.** A node is a list of pairs and a list of edges.  A `NodeRef` is the stack of edge indices from the root, so `ascend`
  is pop and `descend` is push; upward loops over parent pointers become recursion over that path.  The functional properties are
  proved here, by the bijection between leaf edges and positions of the in-order traversal.
* **B-tree, level 2.** A heap of addressed nodes, each with header (`parent`, `parent_idx`, `len`) and arrays of 11/11/12 possibly
  uninitialised slots; explicit allocation and deallocation, with addresses chosen by the allocator among the free ones; a move out of a slot leaves it uninitialised and overwriting an
  initialised slot is `ub`.  The code of node.rs and map.rs is transcribed statement by statement.  Level 2 is proved to refine level 1 in a
  small separation logic (`Heap/Sep.lean`: assertions, frame rule, `Triple`), function by function (`Heap/Proofs/*_spec`, `*_ref`), and
  then for whole programs over any number of maps (`Op.hprog`, `hprog_ref`).
* **Programs.** `Spec.Op` is the type of calls of a program over a growing pool of maps: new, insert, get, get_mut, contains_key, remove, remove_entry,
  clear, append, split_off, clone, try_clone, extend, from_iter, iteration from both ends, iter_mut, range, range_mut (with caught range panics), into_iter,
  entry calls, several simultaneous shared iterators (`views`), `Recover::replace` and `Recover::take` (i.e. the set's replace/take).  Its three
  semantics are the list specification (`Op.spec`), level 1 (`Op.run`) and level 2 (`Op.hrun`); `C03_*` relate all three for every program and every schedule.
* **Orders.** Functional theorems assume `Std.TransOrd` (a lawful `Ord`) and, for borrowed lookups, `BorrowOK` (`Borrow` agrees with `Ord`).
  Safety theorems (C22, C51-C53, C55) assume nothing about `Ord`.
* **Reachability.** `Reach m` (histories whose allocations succeeded), `ReachAny` (any `Ord`), `ReachOom` (also failed insertions), BTree/Reach.lean.
  Theorems are stated for all reachable maps, or for all programs from the empty state.

## 2. Plan per property

| id | what is modelled | how it is proved |
|----|------------------|------------------|
| C01-C03, C06, C12, C14, C17, C18 | search, insert cascade, remove + underflow, entry API | refinement to sorted association lists via the in-order traversal |
| C04, C05, C07, C08, C24 | handles, `next_unchecked`, `next_back_unchecked`, `range_search` | leaf-edge handle = position bijection; induction on height |
| C09, C10, C11 | split_off, append, from_sorted_iter, fix_* | in-order traversal + occupancy invariant |
| C13, C50 | clone_subtree | induction on height, allocator stream |
| C15 | insert cascade with failures | **false of the code**: refutations with witnesses, partial theorem for what does hold |
| C16 | insert cascade with failures | invariants of `ReachOom` |
| C19, C20 | occupancy invariant, comparison counting (`BTree/Count.lean`) | invariant over reachable states |
| C21, C22 | explicit UB outcome | totality theorems from the structural invariant, no Ord hypotheses for C22 |
| C23, C25 | eq/cmp/hash/extend | via the iteration theorem |
| C26-C30, C55, C57 | set iterators as state machines over iterators | induction on sorted lists; C55 by a termination measure only; C57 state machines with several iterators |
| C31-C42, C54 | Vec contract + code | case analysis, induction on loops; slot invariants |
| C43-C45 | reader scripts, formatter pieces | induction |
| C46, C47 | Box/Rc/Arc | case analysis |
| C48, C49 | TryHashMap over an abstract hash table contract | refinement to finite maps |
| C51-C53 | level 2 | separation-logic refinement of level 1; whole programs |
| C56 | several iterators over one map, cloned at any point | state machine against list windows, both levels |
| C58 | `repr(C)` layout algorithm, `into_key_slice` pointer arithmetic (Heap/Bytes.lean) | arithmetic on offsets, powers of two |
| C59 | `Asked` counts the requests between two schedules (BTree/Budget.lean); nodes of a tree | induction over each call; memory level via the refinement (hprog_alloc) |
| C60 | nodes of trees; live cells of the memory | occupancy invariant; separating conjunction counts cells (Heap/Proofs/Footprint.lean) |
| C61 | calls with a comparison that panics after any number of answers (BTree/Unwind.lean) | simulation: a call that does not unwind is the plain call; trees without minimal fill as invariant of the half-built map |
| C62 | same, `split_off`; removal from a half-built map | invariant "length too high by what was cut off"; concrete witnesses of undefined behaviour |
| C63 | level 2: destructor and `IntoIter` on the memory a failed insertion leaves | `Ubs`: computations that are undefined behaviour in every memory with a described part; partially consumed trees as in C51 with a length that is too high |
| C64 | level 2: `extend` and `from_iter` that unwind (Heap/Unwind.lean), with the destructor of the local map | simulation of level 1 with the error case kept; `mapDrop_ub` of C63 for the unwinding |
| C65 | level 2: `append` keeping its state when a comparison panics or memory is refused (`HMap.appendU`), with the list of pairs dropped | simulation of the level-1 `appendP` of C61 in separation logic; the accounting (a permutation) is part of the loop invariant |
| C66 | level 2: `Drop for IntoIter`/`BTreeMap`, `clear` with a destructor that panics after any number have returned (`Op.hcall` in Heap/Unwind.lean) | simulation of the calls without panics; the leaked memory is a frame |
| C67 | level 2: `clone_subtree` with the list of clones made and dropped (Heap/CloneLedger.lean) | refinement of level 1 loop by loop; the memory outside the copy is an exact frame |
| C68 | level 2: `split_off` with the number of comparisons answered, and the drop of the half-built map (Heap/UnwindSplit.lean) | refinement of level 1 (C62) loop by loop; the call without the count is the one of Heap/Bulk.lean |
| C69 | level 2: the searching calls and `extend` with the number of comparisons answered (Heap/UnwindOps.lean); programs of them; specification SpecCut.lean | each call is the undisturbed one or has changed nothing (read-only searches commute with the count); then the refinement of the undisturbed calls; induction over programs |
| C70 | level 2: the owning iterator's `Debug` (Heap/Debug.lean), a borrowed walk over a partly freed tree; specification SpecOwn.lean | the borrowed walk is shown to mimic, step by step, the consuming iterator run on a memory with less in it; the two ends meet exactly when nothing is left (separation) |
| C71 | level 1: `next` of the four set-algebra iterators with a budget of comparisons that return (BTree/AlgUnwind.lean); specification `AlgKind.Out` in SetSpec.lean | one invariant per iterator says what is still to come; a panic keeps it (union, symmetric difference) or drops at most one item from it (difference, intersection); induction over the calls |
| C72 | level 2: every call with its comparisons answered by an arbitrary sequence of functions, each of which may answer anything or panic (Heap/AnyOrd.lean); specification SpecAny.lean, in which a map is a list in some order | the search stops at some entry or some gap whatever it is told; from there the insertion, removal, range and merge proofs for loose maps go through; induction over programs; with honest answers the programs are literally `hprog` |
| C73 | level 2: the calls taken apart into single accesses to nodes (`Prog` in Heap/Conc.lean), the accesses of several threads interleaved by a schedule | every level-2 function is shown to be a sequence of accesses (Proofs/Steps*.lean), read-only for `&self` calls; a separation-logic triple gives a per-thread invariant that holds wherever the allocator puts new nodes (Proofs/Conc.lean); thread-local parts of memory stay apart (Proofs/Threads.lean); fair schedules by well-founded induction |
| C74 | level 2 with comparison sequences (Heap/AnyOrd.lean); costs in SpecCost.lean | a combinator calculus of 'uses at most n of the sequence' for the searches (Proofs/Cost.lean), state-dependent bounds for extend and append by separation-logic simulation of the two runs (Proofs/CostPool.lean), heights bounded through the occupancy invariant |
| C75 | level 2 (Heap/MutLook.lean), spec SpecMut.lean | the cursor invariant of the mutable iterators (MutInv) one step at a time (BTree/Proofs/MutStep.lean), then separation-logic induction over the program of takes, writes and looks |
| C76 | level 2 (Heap/EntryUse.lean), spec SpecEntry.lean: the list cut at the key | an 'entry in hand' assertion (map, handle and place in the list) kept by every use of the entry, by separation logic; the place comes from the search theorem |
| C77 | Level-2 models of `try_insert`, `extend`, `from_iter` and `append` in which the (calm+1)-st destructor of something replaced panics, or the iterator does (Heap/Panics.lean), with the destructors that run while unwinding | Triples for `try_insert`/`extend` against the level-1 model; `append` is simulated by the `append` of C65 in which a comparison panics (same memory, same maps, what is dropped up to order), so C65 carries over |
| C78 | Level-2 model of the set algebra over nodes in memory (Heap/SetAlg.lean): the three strategies of each iterator, the predicates, `Debug`, the operators with `collect`; printing added to level 1 (BTree/AlgViews.lean) | Each level-2 function refines its level-1 twin on any memory that holds the two sets and, being a reading computation (`Steps true`), returns the memory it was given; operators reduce to `from_iter` (C64) of the elements handed out |
| C79 | Level-2 model of `eq`, `partial_cmp`, `cmp`, `hash`, `fmt`, `index` that asks the iterators item by item and stops where the code stops (Heap/Compare.lean); `partial_cmp` added to level 1 | Loop invariant: what the two iterators still have to give; each function then equals its list-level twin on the entries; specification CmpSpec.lean (`Ask.Right`, `FirstDecides`) is independent of both |
| C80 | The computations of C78 and C79 taken apart into single reads (`Steps true`), interleaved as in C73 | All of them only read, so every thread sees the memory it sees alone; the number of reads left of a thread decreases with each of its turns and with nothing else |
| C81 | The methods of C33/C39 plus pop, clear, assignment and exchange as data (`Call`), std's own truncate and IntoIter with panicking destructors, an iterator that panics | Every call keeps `Holds` and the ledger under `Careful`; without it C54 gives the double drop, so the condition is exact; induction over the history |
| C82 | as C73, with calls that copy a shared map (`Call.copy`): the copy becomes the thread's own | clone_subtree is taken apart by hand into lookups of the original and work on new nodes (Proofs/CloneLook.lean), with triples over a read-only part of the memory (Proofs/Sparing.lean); what spares the shared nodes and goes well alone is fine when interleaved (Proofs/Copy.lean, Proofs/Calls.lean) |
| C83 | programs as in C49/C51 that do not stop at a failed insertion; they keep a list of the maps that were hit and leave out the calls that trust `len` on them (BTree/GoOn.lean, Heap/GoOn.lean) | the call lemmas hold for maps whose `len` exceeds the number of entries by any amount; induction over the program with a pool in which the maps that were hit may be loose (BTree/Proofs/GoOn.lean, Heap/Proofs/GoOn.lean) |
| C84 | Insertion that fails also says what it takes away (`Map.insertGone`: the pair dropped and the half of a node left without an owner); in memory the postcondition of a failed insertion is exact. | `InsertSpecN` carries the lost stretch through the recursion; `tryInsert_exact` shows that the half without an owner is a whole tree; `litters` collects such trees along a program; every cell belongs to exactly one tree of the separating conjunction. |
| C85 | The set operations with a fixed number of comparisons to spend in all (`AlgView.runP`, `BSet.isSubsetP`, `BSet.opP`, built on the model of panicking comparisons of C71); each hands back what is left. | Amortised: a potential (lengths still to walk, or one search for each element left) pays for every comparison (`PayStep`); induction over calls of `next`; `height_cost` bounds a search. |
| C86 | `Act.hprog` (Heap/Whole.lean): one program type that joins the calls (`Op`), the questions (`Ask`), the mutable iterators (`MutLook`) and the entries (`EntryUse`) in memory; specification `Act.Rights` on lists (SpecWhole.lean). | Each step's triple is the one proved for C51/C75/C76/C79, restated over the pool of maps (`act_ref`); sortedness is kept by every step; induction over the program (`acts_ref`); the specification is shown to be deterministic (`C86_determined`). |
| C87 | `SetAct.hprog` (Heap/WholeSets.lean): the programs of C86 over maps to `()`, joined with the set algebra, the predicates, printing and the operators of C78 in memory; specification `SetAct.Rights` on lists (SpecSets.lean). | `act_ref` of C86, the reading lemmas of C78 (`pool_known`, `algRuns_ref`, …), and `operator_eq` with `fromIterU_any`, which puts the new set into the pool; induction over the program (`setActs_ref`); the specification is shown to determine the sets (`C87_determined`). |
| C88 | Threads over the whole API (Heap/ConcWhole.lean: `Api.thread`, `Api.spawn`), with the programs of C86 as what one thread does; specification `Turn.Rights`, `Turn.Told` (SpecThreads.lean). | Generic in the API (`Obeys`, `TakesApart`): `task_fine` by induction over the thread, with `act_ref` for own maps, reading parts for looks, and `copyP_look` for clones; then the invariant of C73 (`Going`) over any interleaving (`tasks_told`, …); `map_obeys`, `map_apart` are the instance for maps. |
| C89 | The same threads (Heap/ConcWhole.lean) with the programs of C87 (`setApi`); the operators taken apart into accesses (`HMap.operatorP`, Heap/Proofs/SetCopy.lean). | The second instance of the generic theorems of C88: `set_obeys` from `setAct_ref`; `set_apart`, for which `operatorP_look` shows by induction over the elements of the result that an operator only looks at its two sets, whatever else is in memory, and changes only the set it makes. |
| C90 | The code of C70 and C87 once more with a number of comparisons that still return (Heap/AlgUnwind.lean: `callsU`, `isSubsetU`, `isDisjointU`, `operatorU`). | Iterators: they refine the functional model of C71 (`callsU_ref`). Predicates and operators: cut short, they are the undisturbed code (`CutsO`, `hcollectSetU_judge`); the unfinished set is a set like any other in separation from the two that are read, hence its drop gives back just its own nodes (`collectEndU_drops`). |
| C91- | see properties.jsonl | named in the theorem files |

## 3. Trusted base

* Lean 4.33.0's kernel (`vcheck` also replays every module).
* Axioms: only `propext`, `Classical.choice` and `Quot.sound`.  No axiom is added; no compiled evaluation is used (`decide +kernel` in the
  concrete examples is evaluated by the kernel).
* That the Lean definitions say what the cited Rust says.  Section 6 describes how this was tested.
* The contracts of dependencies, written as Lean definitions: `Vec`/`RawVec` (Vec/Raw.lean), `into_boxed_slice`, `Box::from_raw`, `Rc/Arc::from`,
  `Arc::try_new` (Misc/Boxed.lean), `Read`/`Take`/`read_to_end` (Misc/Io.lean), `write_fmt` on `String` (Misc/Format.lean), the hash table
  (Misc/HashMap.lean: layout, growth and iteration order are universally quantified), `Alloc::alloc/dealloc` (Heap/Mem.lean).

Axioms of each theorem (output of `tools/axioms.py`):

* **propext**: `C43_read_to_end`, `C47_unstable`, `C50_prim`, `C75_looking`, `C86_calls`
* **Quot.sound**: `C67_ledger`
* **propext, Quot.sound**: `C12_append_can_panic`, `C15_refuted_len`, `C15_refuted_contents`, `C19_min_len_violated`, `C23_partial_cmp`, `C23_cmp`, `C25_from_iter`, `C31_try_reserve`, `C32_try_push`, `C32_try_push_give_back`, `C34_try_insert`, `C35_try_append`, `C37_shrink`, `C41_try_from_iterator`, `C42_zero`, `C42_u8`, `C45_fits`, `C45_correct`, `C45_exceeds`, `C46_try_new`, `C46_inexact`, `C46_try_clone`, `C47_stable`, `C47_zst`, `C47_arc_clone`, `C48_remove`, `C48_iter`, `C48_with_capacity`, `C50_option`, `C50_box`, `C58_overaligned`, `C59_quiet`, `C62_split_off_witness`, `C62_remove_after_append_witness`, `C62_remove_after_oom_witness`, `C69_returned`, `C69_enough`, `C72_honest`, `C75_range_panics`, `C76_panics`, `C81_iterator`, `C81_collect`
* **propext, Classical.choice, Quot.sound**: `C01_insert_then_get`, `C02_remove`, `C03_memory`, `C03_history`, `C03_history_no_error`, `C04_iteration`, `C05_double_ended`, `C06_len_exact`, `C07_range_exact`, `C08_range_panics`, `C09_split_off`, `C10_split_off_atomic`, `C11_append`, `C11_append_returns`, `C12_append_panics_only`, `C13_try_clone`, `C13_try_clone_returns`, `C14_insert_keeps_key`, `C14_replace_swaps`, `C15_failed_insert_partial`, `C15_failed_insert_then_iter_ub`, `C16_failed_insert`, `C17_try_entry`, `C17_or_try_insert`, `C17_or_try_insert_with`, `C17_and_modify`, `C18_occupied`, `C19_occupancy`, `C20_lookup_cost`, `C21_no_ub`, `C22_any_ord`, `C23_eq`, `C23_hash`, `C24_iter_mut`, `C24_range_mut`, `C25_extend`, `C25_extend_returns`, `C26_difference`, `C26_intersection`, `C26_union`, `C26_symmetric_difference`, `C26_determined`, `C27_predicates`, `C28_size_hints`, `C29_contains_get`, `C29_insert`, `C29_remove_take`, `C29_replace`, `C29_append_split`, `C29_extend`, `C29_from_iter`, `C29_empty`, `C29_clone`, `C30_operators`, `C33_call`, `C33_builders`, `C36_try_resize`, `C36_try_resize_with`, `C37_grow`, `C37_grow_refused`, `C37_faithful`, `C38_copy`, `C38_no_copy`, `C39_call`, `C39_history`, `C40_try_clone`, `C40_concat`, `C40_concat_overflow`, `C40_faithful`, `C41_refused_only_when_full`, `C42_try_from_elem`, `C42_u8_agrees`, `C43_read_up_to`, `C43_read_into_try_vec`, `C44_write`, `C44_write_room`, `C48_insert`, `C48_history`, `C49_try_clone`, `C49_faithful`, `C50_vec`, `C50_hash_map`, `C50_tree_map`, `C50_keys`, `C50_nested`, `C51_owned`, `C51_drop`, `C51_into_iter`, `C51_history`, `C52_links`, `C52_descend_ascend`, `C53_no_ub`, `C53_storage`, `C53_slice_insert`, `C53_slice_remove`, `C54_shrink_not_panic_safe`, `C54_state`, `C55_set_any_ord`, `C56_views`, `C57_algebra_views`, `C58_leaf`, `C58_internal`, `C58_keys`, `C59_insert`, `C59_insert_succeeds`, `C59_replace`, `C59_entry`, `C59_or_insert`, `C59_extend`, `C59_split_off`, `C59_try_clone`, `C59_append`, `C59_memory`, `C60_footprint`, `C60_memory`, `C61_insert`, `C61_entry`, `C61_remove`, `C61_enough`, `C61_lawless`, `C61_extend`, `C61_append`, `C61_append_returns`, `C61_append_enough`, `C61_append_usable`, `C62_split_off`, `C62_split_off_lost`, `C62_split_off_returns`, `C63_drop_ub`, `C63_into_iter_ub`, `C63_others`, `C64_extend`, `C64_from_iter`, `C65_append`, `C65_append_history`, `C66_no_ub`, `C66_calls`, `C66_history`, `C66_ends`, `C67_try_clone`, `C68_split_off`, `C68_returns`, `C68_lost`, `C69_no_ub`, `C69_enough_extend`, `C69_unwound`, `C69_history`, `C69_ends`, `C70_into_iter`, `C70_history`, `C70_only_reads`, `C71_algebra_unwind`, `C71_peeking_any_ord`, `C72_no_ub`, `C72_history`, `C72_ends`, `C73_no_ub`, `C73_no_race`, `C73_ends`, `C73_alone`, `C73_memory`, `C73_answers`, `C73_contents`, `C73_exists`, `C74_calls`, `C74_returns`, `C74_honest`, `C75_iter_mut`, `C75_values_mut`, `C75_history`, `C75_range_mut`, `C76_any_order`, `C76_history`, `C76_place`, `C77_try_insert`, `C77_extend`, `C77_try_insert_history`, `C77_extend_history`, `C77_collect`, `C77_collect_history`, `C77_append`, `C77_append_history`, `C78_any_order`, `C78_history`, `C79_any_order`, `C79_history`, `C80_readers`, `C80_maps`, `C80_sets`, `C81_call`, `C81_exact`, `C81_history`, `C81_into_iter`, `C81_builders`, `C82_spares`, `C82_unchanged`, `C82_snapshot`, `C82_contents`, `C83_safe`, `C83_answers`, `C83_repair`, `C84_one_stretch`, `C84_programs`, `C84_one_call`, `C85_iterators`, `C85_predicates`, `C85_operators`, `C86_defined`, `C86_any_order`, `C86_history`, `C86_stops`, `C86_memory`, `C86_determined`, `C87_defined`, `C87_any_order`, `C87_history`, `C87_stops`, `C87_memory`, `C87_clones`, `C87_determined`, `C88_no_ub`, `C88_no_race`, `C88_ends`, `C88_alone`, `C88_any_order`, `C88_history`, `C88_memory`, `C88_determined`, `C88_exists`, `C89_no_ub`, `C89_no_race`, `C89_ends`, `C89_alone`, `C89_any_order`, `C89_history`, `C89_memory`, `C89_exists`, `C89_determined`, `C90_iterators`, `C90_peeking_any_ord`, `C90_predicates`, `C90_operators`, `C90_operators_memory`

## 4. What is modelled and what is not

Modelled: all of src/btree/{node,search,map,set}.rs except the items below; src/vec.rs, src/boxed.rs, src/rc.rs, src/arc.rs, src/format.rs, src/hashmap.rs,
src/try_clone.rs, the traits of src/lib.rs.

Not modelled, or simplified:

* `Debug` output is modelled as the list of things printed (iterators, ranges, set operations), not as text; `Debug` of the
  collections themselves (`fmt` of hashmap.rs, vec.rs) delegates to std and is left out, as are `Default`, `Deref`, `AsRef` wrappers that only delegate,
  and `UnwindSafe`, variance and lifetimes (checked by rustc, not at run time).  What `Send` and `Sync` promise is C73: one access there is a read or a write of a whole
  node, and threads have no other memory; the copies made of a shared map are in C82; threads over the whole API are in C88 (maps) and C89 (sets).  The
  single accesses are found from what a call does to the memory, so a store that puts back exactly what is there would not be told from no store.
* Byte offsets appear only in Heap/Bytes.lean (C58); level 2 uses numbered slots.
* Level 2: the allocator may put a new node at any free address, also one that was in use before (`Heap.place`; every theorem is for all such choices, so it includes the allocator that
  never uses an address twice, for which every access to a freed node is `ub`); `keys` and `vals` arrays are moved in one step where the code moves
  keys, then values; `usize`/`u16` arithmetic is on `Nat` with checked underflow (a length counts entries in memory, a node has at most 11); aliasing rules
  (stacked borrows) are not modelled.
* A panic ends the run of a level-2 program (`Exec.panic` drops the state) except for caught range panics.  Unwinding in memory is modelled separately, call
  by call, in Heap/Unwind.lean: `extend`/`from_iter` (C64), `append` (C65), destructors (C66), and in Heap/CloneLedger.lean `try_clone`/`clone` (C67), in Heap/UnwindSplit.lean `split_off` (C68), in Heap/EntryUse.lean the closures of entries (C76), and in Heap/UnwindOps.lean comparisons in all other calls, in
  whole programs (C69).  The vector model keeps the
  state when panicking (C54, C81).
* At level 2 a program (`Op.hprog`) ends after the first failed insertion (its state then violates the length invariant: C15).  Level 1 continues (`ReachOom`, C16), and so do the
  careful programs of C83 and C84 at level 2 (`Op.hgoOn`), which leave out the calls that trust the length of a map that was hit.
* Comparison functions are pure except in C72 (Heap/AnyOrd.lean), where every comparison of every call may answer anything, depending on how many came
  before, or panic.  A panicking one is also modelled call by call at level 1 (C61, C62; calls taking `&self` leave the map alone) and at level 2 for `append` and
  `split_off` (C65, C68; in C72 such a panic ends the run) and in programs of the other calls (C69); an inconsistent one in C22, C55.
* Zero-sized keys/values in the B-tree, `usize` overflow of `length` (needs more entries than memory), and std's growth constants.
* Feature gates: the B-tree module exists only with `unstable`, `TryHashMap` only without; both are modelled at once.

## 5. What the proofs found in the code

1. `VacantEntry::try_insert` increments `length` before allocating; if a split's allocation fails `len()` is one too high (C15_refuted_len),
   and if the leaf split succeeded but the parent's fails, the middle pair and the whole right half are lost (C15_refuted_contents).  Iterating or dropping such
   a map runs past the end: undefined behaviour in safe code (C15_failed_insert_then_iter_ub; in memory, for the destructor and `IntoIter`: C63_drop_ub, C63_into_iter_ub; `collect` runs that destructor while unwinding: C64_from_iter).  Failing in `ensure_root_is_owned` is atomic.
2. Splitting a full leaf at index 6 of 11 leaves 6 and 4 pairs, so the true minimal occupancy is 4, not `MIN_LEN = 5` (C19).
3. `append`, `Clone`, `extend`, `from_iter` and the set operators panic on allocation failure although the crate is about fallible allocation (C12, C25, C30).
4. `Rc::try_new` and, without `unstable`, `Arc::try_new` can abort: a second, infallible allocation follows the fallible one (C47).
5. `try_format` aborts when the text exceeds the announced capacity and memory is short (C45_exceeds).
6. `Box::try_new` is free of an infallible reallocation only if the exact reservation really is exact (C46_inexact).
7. `Truncate::truncate` (and so `try_resize_no_copy`) is not panic safe: a caught panic in a destructor leads to a double drop (C54).
8. `TryVec::concat` sums lengths without overflow check; reachable for zero-sized elements (C40_concat_overflow).
9. `TryHashMap::insert` reports every failure as `CapacityOverflow`, also when the allocator refused.
10. `try_extend_from_slice_no_copy`/`try_resize_no_copy` leave a partial prefix when cloning an element fails (C37, C38).
11. Failed `split_off` and failed `try_clone` leak nothing and leave the map intact (C10, C13; level 2 `splitOff_ref`, `tryClone_ref`).
12. `BTreeSet::append` keeps the other set's object on ties, `union` keeps self's, `intersection` yields the smaller set's.
13. Keys whose alignment exceeds two pointers (32 or more on 64-bit targets) make every lookup in, and the drop of, a non-empty map panic: the assertion in
    `into_key_slice` fails (C58_overaligned).
14. `Debug` of `set::Range` is derived and prints map pairs; `Range` has the default size_hint `(0, None)`.
15. A key comparison that panics inside `split_off` (and is caught) leaves a map whose `len()` is too high: iterating over it, or dropping it, is undefined
    behaviour (C62_split_off); the entries already moved leak.
16. After an `append` that unwound and was caught, `self` may end in an empty leaf below an internal pair, or have a root without pairs: `remove` is then undefined
    behaviour or reaches `unreachable!()` (C62 witnesses).  Reading it and inserting into it are fine (C61).

## 6. Testing the theorems against wrong programs

`tools/mutate/mutants.py` holds the wrong programs (an edit of a model definition each); `tools/mutate/run.py` applies each to a scratch copy outside `/verif`, rebuilds with
every module that can still be elaborated (a failing lemma is skipped and its dependants are reported as failed), and runs `battery.txt` /
`battery_heap.txt`: executable samples of the English claims, so that for each claim made false by the edit a theorem of that claim must fail.  Results:
`seeded/LOG.jsonl`.  Verdict `ok`: every claim found false has a failing theorem; `ok (no sample false)`: proofs failed but no sample showed a claim
false; `SURVIVED`: nothing failed, in each case because the edited program is equivalent.  Theorems that were found too weak that way were restated (recorded in
`theorems_tightened`).
