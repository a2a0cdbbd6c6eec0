{"id": "C01", "title": "Insert then lookup", "statement": "When BTreeMap::try_insert(k, v) returns Ok(old): old is the value previously returned by get(k) (None if absent); afterwards get(q) = Some(v) for every q equal to k and get(q) is unchanged for every other q.", "quantifier": "every map reachable by any history of successful operations, every key, value, query key, every lawful Ord, every allocator behaviour under which the call returns Ok", "why_tests_cant": "The tree shape (and which node splits) depends on the whole history; a finite set of histories cannot cover all shapes.", "anchors": ["src/btree/map.rs:BTreeMap::try_insert", "src/btree/map.rs:VacantEntry::try_insert", "src/btree/node.rs:Handle::insert", "src/btree/search.rs:search_tree"]}
{"id": "C02", "title": "Remove exactly one entry", "statement": "BTreeMap::remove(q) returns the value get(q) returned before; afterwards get(q)=None, every other key is unaffected, len() drops by one iff something was removed.", "quantifier": "every reachable map, every key, every lawful Ord", "why_tests_cant": "Merging, stealing and root collapse depend on the occupancy of the whole path.", "anchors": ["src/btree/map.rs:BTreeMap::remove", "src/btree/map.rs:OccupiedEntry::remove_kv", "src/btree/map.rs:handle_underfull_node", "src/btree/node.rs:merge,steal_left,steal_right"]}
{"id": "C03", "title": "Histories refine a sorted association list", "statement": "Any finite sequence of insert / remove / get / contains / clear / append / split_off / entry operations, all of whose allocations succeed, returns exactly the results that a sorted association list returns, and the map's iteration order is that list.", "quantifier": "every operation sequence of any length, all keys and values, every lawful Ord", "why_tests_cant": "Unbounded histories.", "anchors": ["src/btree/map.rs:BTreeMap"]}
{"id": "C04", "title": "Iteration is sorted, complete and duplicate free", "statement": "iter() (also keys(), values(), into_iter(), iter_mut()) yields every entry exactly once, in strictly increasing key order, and exactly len() items; then None forever.", "quantifier": "every reachable map of every size and shape", "why_tests_cant": "The loop climbs and descends the tree; every shape and height is a different path.", "anchors": ["src/btree/map.rs:Iter::next", "src/btree/map.rs:Range::next_unchecked", "src/btree/map.rs:first_leaf_edge", "src/btree/map.rs:IntoIter::next"]}
{"id": "C05", "title": "Double-ended iteration never overlaps", "statement": "For any interleaving of next() and next_back() on iter/keys/values/iter_mut/into_iter: the items from the front are a prefix and the items from the back a reversed suffix of the sorted entry sequence, together never overlapping, and size_hint()/len() is exact at every moment.", "quantifier": "every reachable map, every interleaving of next/next_back of any length", "why_tests_cant": "Exponentially many interleavings times tree shapes.", "anchors": ["src/btree/map.rs:Iter", "src/btree/map.rs:IterMut", "src/btree/map.rs:IntoIter", "src/btree/map.rs:next_back_unchecked"]}
{"id": "C06", "title": "len() is exact", "statement": "len() equals the number of entries iteration can produce and is_empty() iff there are none, after any history in which no allocation failed.", "quantifier": "every history of successful operations", "why_tests_cant": "len is maintained incrementally (+1, -1, recalc, total-minus-part) far from the tree.", "anchors": ["src/btree/map.rs:BTreeMap::len", "src/btree/map.rs:recalc_length", "src/btree/map.rs:VacantEntry::try_insert"]}
{"id": "C07", "title": "range() selects exactly the interval", "statement": "range(lo..hi) for every combination of Included/Excluded/Unbounded bounds yields exactly the entries within the bounds, in increasing order from the front and decreasing order from the back, for any interleaving of next/next_back.", "quantifier": "every reachable map, every pair of bounds, every lawful Ord and Borrow, every interleaving", "why_tests_cant": "Bounds may hit keys in internal nodes, leaf ends, missing keys at any depth.", "anchors": ["src/btree/map.rs:range_search", "src/btree/map.rs:Range"]}
{"id": "C08", "title": "range() panics exactly when documented", "statement": "range panics iff start > end or start == end with both Excluded; the 'Ord is ill-defined' panic and 'different depths' unreachable are never reached when Ord is lawful.", "quantifier": "every reachable map, every bounds pair, every lawful Ord", "why_tests_cant": "Needs the search to be monotone on every tree.", "anchors": ["src/btree/map.rs:range_search"]}
{"id": "C09", "title": "split_off partitions", "statement": "split_off(q) returns Ok(right) where right holds exactly the entries with key >= q, self keeps exactly those with key < q, both have exact len(), both remain fully valid maps.", "quantifier": "every reachable map, every split key, every allocator that grants the allocations", "why_tests_cant": "Border repair (merge / bulk steal / pop level) depends on the lengths along two whole borders.", "anchors": ["src/btree/map.rs:BTreeMap::split_off", "src/btree/map.rs:fix_right_border", "src/btree/map.rs:fix_left_border", "src/btree/map.rs:fix_top", "src/btree/node.rs:move_suffix,bulk_steal_left,bulk_steal_right"]}
{"id": "C10", "title": "split_off failure is atomic", "statement": "If split_off returns Err, self has exactly the same entries, order and len as before.", "quantifier": "every reachable map, every key, every allocation failure point", "why_tests_cant": "Needs every failure point.", "anchors": ["src/btree/map.rs:BTreeMap::split_off"]}
{"id": "C11", "title": "append merges with right bias", "statement": "append(other) leaves other empty and self holding, in order, every entry of other plus every entry of self whose key is not in other; on equal keys both the key and the value come from other; len exact; result is a valid map.", "quantifier": "every pair of reachable maps, every lawful Ord, every allocator that grants the allocations", "why_tests_cant": "Bulk build and right-edge repair depend on the exact total count.", "anchors": ["src/btree/map.rs:BTreeMap::append", "src/btree/map.rs:from_sorted_iter", "src/btree/map.rs:fix_right_edge", "src/btree/map.rs:MergeIter"]}
{"id": "C12", "title": "append is not fallible", "statement": "append signals allocation failure by panicking, not by a Result (so OOM inside append is never reported as Err); it can panic even though both inputs are valid.", "quantifier": "every allocator schedule", "why_tests_cant": "Crash points.", "anchors": ["src/btree/map.rs:from_sorted_iter"]}
{"id": "C13", "title": "try_clone yields an equal independent map", "statement": "If BTreeMap::try_clone returns Ok(c) then c has the same entries in the same order and the same len, c is a valid map and self is unchanged; if it returns Err, self is unchanged.", "quantifier": "every reachable map, every allocator schedule, every element clone that returns an equal value or an error", "why_tests_cant": "Recursive copy over all shapes; all failure points.", "anchors": ["src/btree/map.rs:TryClone for BTreeMap"]}
{"id": "C14", "title": "Stored key is kept on re-insertion", "statement": "When try_insert hits an existing equal key the key object already stored is kept and only the value changes; BTreeSet::replace instead swaps in the new key object and returns the old one.", "quantifier": "every reachable map, all keys that are Ord-equal but distinguishable", "why_tests_cant": "Only visible for distinguishable equal keys at any depth.", "anchors": ["src/btree/map.rs:BTreeMap::try_insert", "src/btree/map.rs:Recover::replace"]}
{"id": "C15", "title": "Failed insert leaves the map unchanged", "statement": "If try_insert returns Err(TryReserveError) the map has the same entries and the same len() as before (what 'gracefully returns a Result' promises).", "quantifier": "every reachable map, key, value and every allocation failure point", "why_tests_cant": "Failure points of every allocation of every split cascade.", "anchors": ["src/btree/map.rs:VacantEntry::try_insert", "src/btree/map.rs:ensure_root_is_owned"]}
{"id": "C16", "title": "A failed insert never invents or reorders entries", "statement": "After try_insert returns Err, lookups still terminate safely, the entries still reachable by lookup are in sorted order, and each of them was in the map before or is the entry being inserted.", "quantifier": "every reachable map, every allocation failure point", "why_tests_cant": "All failure points.", "anchors": ["src/btree/map.rs:VacantEntry::try_insert", "src/btree/node.rs:Handle::insert,split"]}
{"id": "C17", "title": "Entry API", "statement": "try_entry(k).or_try_insert(d) / or_try_insert_with(f) / or_default(): if k is present the map is unchanged and the reference designates its value (the closure is not run); otherwise d is inserted and the reference designates the new value; and_modify changes only that value.", "quantifier": "every reachable map, key, value, function", "why_tests_cant": "The returned reference crosses any number of node splits.", "anchors": ["src/btree/map.rs:Entry", "src/btree/map.rs:VacantEntry", "src/btree/map.rs:OccupiedEntry"]}
{"id": "C18", "title": "Occupied entry operations", "statement": "OccupiedEntry::{key,get,get_mut,into_mut,insert,remove,remove_entry} act on exactly the entry whose key equals the looked-up key: insert returns the old value and replaces only it; remove_entry returns the stored pair and removes only it.", "quantifier": "every reachable map and present key", "why_tests_cant": "Handle may be in a leaf or any internal node.", "anchors": ["src/btree/map.rs:OccupiedEntry"]}
{"id": "C19", "title": "Node occupancy", "statement": "Every node of a reachable map holds at most 11 keys, and every node other than the root at least 4; the documented lower bound B-1 = 5 is NOT maintained by insertion.", "quantifier": "every history", "why_tests_cant": "Occupancy is an invariant over all histories.", "anchors": ["src/btree/map.rs:BTreeMap (doc)", "src/btree/node.rs:B,CAPACITY,MIN_LEN", "src/btree/node.rs:Handle::insert"]}
{"id": "C20", "title": "Logarithmic lookup cost", "statement": "In a map with n entries a lookup performs at most 11*(h+1) key comparisons where the height h satisfies 2*5^h <= n+1 (h>=1).", "quantifier": "every reachable map and key", "why_tests_cant": "Depth bound over all histories.", "anchors": ["src/btree/search.rs:search_tree", "src/btree/node.rs:Root::height"]}
{"id": "C21", "title": "No undefined access in OOM-free histories", "statement": "In any history whose allocations succeed no operation reaches unreachable!(), unwrap_unchecked(None), a key/value/edge slot that does not exist, or a failing debug assertion.", "quantifier": "every history of successful operations, every lawful Ord", "why_tests_cant": "All shapes.", "anchors": ["src/btree/map.rs:unwrap_unchecked", "src/btree/node.rs:get_unchecked", "src/btree/map.rs:remove_kv"]}
{"id": "C22", "title": "Unlawful Ord cannot break memory safety", "statement": "Even if Ord is an arbitrary (inconsistent) comparison function, every insert/remove/get/range/split_off keeps the tree structurally valid with exact len and no undefined access; range returns or panics, and its iterator never runs past its end.", "quantifier": "every comparison function whatsoever, every history", "why_tests_cant": "Adversarial orders are unbounded.", "anchors": ["src/btree/map.rs:range_search", "src/btree/search.rs:search_linear"]}
{"id": "C23", "title": "Equality, order and hash depend only on contents", "statement": "Two maps with equal entry sequences compare equal (==), Equal under cmp, and hash identically, whatever insertion/removal history and tree shape each has; cmp is the lexicographic order of entry sequences.", "quantifier": "every pair of reachable maps", "why_tests_cant": "Pairs of histories.", "anchors": ["src/btree/map.rs:PartialEq,Ord,Hash for BTreeMap"]}
{"id": "C24", "title": "Mutable iteration visits each value once", "statement": "iter_mut / values_mut / range_mut hand out each value in scope exactly once (never two references to the same slot); writing through them changes exactly those values and no key, order or len.", "quantifier": "every reachable map, bounds, interleaving, and update function", "why_tests_cant": "Aliasing over all shapes.", "anchors": ["src/btree/map.rs:IterMut,RangeMut,ValuesMut"]}
{"id": "C25", "title": "extend / from_iter: last write wins", "statement": "from_iter/extend of a sequence gives the map in which each key has the value of its last occurrence (first-stored key object), or panics if an allocation fails.", "quantifier": "every sequence", "why_tests_cant": "Unbounded sequences.", "anchors": ["src/btree/map.rs:Extend,FromIterator"]}
{"id": "C26", "title": "Set algebra is exact", "statement": "BTreeSet difference, symmetric_difference, intersection and union iterate exactly the mathematical set, in increasing order without duplicates, both for the stitching and for the searching strategy, for any sizes of the two sets.", "quantifier": "every pair of reachable sets of any sizes", "why_tests_cant": "Strategy switches at a 16x size ratio; all interleavings of keys.", "anchors": ["src/btree/set.rs:difference,symmetric_difference,intersection,union"]}
{"id": "C27", "title": "Set predicates are exact", "statement": "is_subset, is_superset and is_disjoint answer exactly the mathematical question for all three strategies.", "quantifier": "every pair of reachable sets", "why_tests_cant": "All size ratios and interleavings.", "anchors": ["src/btree/set.rs:is_subset,is_superset,is_disjoint"]}
{"id": "C28", "title": "Set iterator size hints are honest", "statement": "At every point of iterating difference / symmetric_difference / intersection / union, the lower bound of size_hint is at most and the upper bound at least the number of items still to come.", "quantifier": "every pair of reachable sets, every number of items already taken", "why_tests_cant": "Every prefix.", "anchors": ["src/btree/set.rs:size_hint"]}
{"id": "C29", "title": "Set insert/contains/get/take/replace/remove, extend/from_iter, clear/is_empty, clone", "statement": "BTreeSet::try_insert returns Ok(true) iff the value was absent; contains/get/take/remove/replace agree with a mathematical set (get/take/replace returning the stored object). extend and from_iter leave exactly the old elements and, of each new class of equal elements, the first object given; clear empties the set, len and is_empty agree with the contents; clone makes clones of exactly the elements, in order; extend, from_iter and clone panic only if the allocator refuses a request.", "quantifier": "every reachable set and value", "why_tests_cant": "Histories.", "anchors": ["src/btree/set.rs:try_insert,contains,get,take,replace,remove,extend,from_iter,clear,len,is_empty,clone"]}
{"id": "C30", "title": "Set operators", "statement": "&a - &b, &a | &b, &a & &b, &a ^ &b build sets with exactly the mathematical contents (or panic on OOM).", "quantifier": "every pair of reachable sets", "why_tests_cant": "Pairs of histories.", "anchors": ["src/btree/set.rs:Sub,BitOr,BitAnd,BitXor"]}
{"id": "C31", "title": "try_reserve guarantees room", "statement": "try_reserve(n): Ok implies capacity >= len + n, contents unchanged, and a second try_reserve(n) changes nothing and cannot fail; Err implies vector unchanged; a request whose total exceeds the address space always fails.", "quantifier": "every vector, every n (up to usize::MAX), every allocator and growth policy", "why_tests_cant": "All sizes, overflow corner cases.", "anchors": ["src/vec.rs:FallibleVec::try_reserve,try_with_capacity"]}
{"id": "C32", "title": "try_push / try_push_give_back", "statement": "Ok: the element is appended, the rest unchanged. Err: the vector is unchanged and try_push_give_back returns the very element that was passed in.", "quantifier": "every vector, element, allocator behaviour", "why_tests_cant": "Failure points.", "anchors": ["src/vec.rs:try_push,try_push_give_back"]}
{"id": "C33", "title": "Fallible Vec methods never allocate infallibly", "statement": "No try_* method of FallibleVec, and no TryVec method, ever reaches an allocation inside std whose failure would abort: every allocation is made by try_reserve first.", "quantifier": "every vector, argument, allocator behaviour and growth policy", "why_tests_cant": "Needs all lengths/capacities, including overflow boundary.", "anchors": ["src/vec.rs:FallibleVec for Vec", "src/vec.rs:needs_to_grow", "src/vec.rs:TryVec"]}
{"id": "C34", "title": "try_insert at index", "statement": "Ok iff memory was available: inserts at the index shifting the tail; Err returns the element and leaves the vector unchanged; panics iff index > len (and the needed reservation succeeded).", "quantifier": "every vector, index, element, allocator", "why_tests_cant": "Boundary index/capacity combinations.", "anchors": ["src/vec.rs:try_insert"]}
{"id": "C35", "title": "try_append", "statement": "Ok: self = self ++ other and other is empty. Err: both unchanged.", "quantifier": "every pair of vectors, every allocator", "why_tests_cant": "Failure points.", "anchors": ["src/vec.rs:try_append"]}
{"id": "C36", "title": "try_resize / try_resize_with", "statement": "Ok: length is new_len; growth appends copies of value (calls f left to right exactly new_len - len times); shrinking keeps the prefix; Err only when growing and leaves the vector unchanged and f uncalled.", "quantifier": "every vector, new_len, value, f, allocator", "why_tests_cant": "All lengths.", "anchors": ["src/vec.rs:try_resize,try_resize_with"]}
{"id": "C37", "title": "try_resize_no_copy", "statement": "Ok: same contents as resize, with exactly new_len-len-1 clones when growing and none when shrinking; shrinking drops exactly the removed elements, each once; Err: the old elements followed by some number of successfully made clones remain.", "quantifier": "every vector, new_len, value, clone failure point, allocator", "why_tests_cant": "Clone failure points.", "anchors": ["src/vec.rs:try_resize_no_copy,try_extend_with,Truncate::truncate"]}
{"id": "C38", "title": "try_extend_from_slice(_no_copy)", "statement": "Ok: self ++ clones of other. The Copy version's Err leaves self unchanged; the no_copy version's Err leaves self ++ clones of a proper prefix of other (unchanged if the reservation failed).", "quantifier": "every vector, slice, clone failure point, allocator", "why_tests_cant": "Clone failure points.", "anchors": ["src/vec.rs:try_extend_from_slice,try_extend_from_slice_no_copy"]}
{"id": "C39", "title": "Raw writes stay inside the allocation", "statement": "The unsafe pointer writes, set_len and drop_in_place in try_extend_from_slice_no_copy, try_extend_with, truncate and the u8 try_from_elem always target slots within capacity; set_len never exposes an uninitialised slot and no element is dropped twice or leaked.", "quantifier": "every vector, argument, failure point", "why_tests_cant": "Memory safety over all sizes.", "anchors": ["src/vec.rs:try_extend_from_slice_no_copy,try_extend_with,truncate,SpecFromElem"]}
{"id": "C40", "title": "TryVec clone, concat, conversions", "statement": "TryVec::try_clone, TryFrom<&[T]>, TryFrom<&str>, concat return Ok with exactly the (concatenated) contents or Err; the sources are unchanged.", "quantifier": "every nested vector, allocator and clone failure point", "why_tests_cant": "Failure points.", "anchors": ["src/vec.rs:TryVec::concat,TryClone,TryFrom"]}
{"id": "C41", "title": "try_from_iterator / try_collect", "statement": "Ok: all items in order. Err: happens exactly at the first item whose push could not allocate; later items are not pulled from the iterator.", "quantifier": "every finite iterator, every allocator", "why_tests_cant": "Failure points.", "anchors": ["src/vec.rs:TryFromIterator,TryCollect"]}
{"id": "C42", "title": "try_from_elem / try_vec!", "statement": "try_from_elem(x, n) is Ok of n copies of x (n = 0 gives an empty vector and makes no clone) or Err; the u8 specialisation agrees with the generic one.", "quantifier": "every n, element, allocator", "why_tests_cant": "All n.", "anchors": ["src/vec.rs:try_from_elem"]}
{"id": "C43", "title": "Bounded read", "statement": "try_read_up_to(src, limit, buf): Ok(n) implies n <= limit, buf = old ++ the first n bytes the source delivered, and n < limit only if the source reported EOF; Err on failed reservation leaves buf unchanged and src unread; try_read_to_end on Take uses the remaining limit.", "quantifier": "every byte source behaviour (short reads, errors, EOF), limit and allocator", "why_tests_cant": "All reader schedules.", "anchors": ["src/vec.rs:std_io::try_read_up_to,TryRead"]}
{"id": "C44", "title": "Write for TryVec<u8> is all-or-nothing", "statement": "write(b) either appends all of b and returns Ok(b.len()) or returns Err and leaves the vector unchanged.", "quantifier": "every buffer, vector and allocator", "why_tests_cant": "Failure points.", "anchors": ["src/vec.rs:Write for TryVec<u8>"]}
{"id": "C45", "title": "try_format", "statement": "Ok(s) has s equal to the formatted text; if the text fits in max_capacity no infallible allocation happens; if it does not fit an infallible (aborting) allocation can happen.", "quantifier": "every capacity, every sequence of written pieces, every allocator", "why_tests_cant": "Boundary sizes.", "anchors": ["src/format.rs:try_format"]}
{"id": "C46", "title": "Fallible Box", "statement": "Box::try_new / TryBox::try_new: Ok designates exactly the value given; Err otherwise; never aborts (given an exact reservation); try_clone of a box clones the content.", "quantifier": "every value and allocator", "why_tests_cant": "Failure points.", "anchors": ["src/boxed.rs:FallibleBox,TryBox"]}
{"id": "C47", "title": "Rc/Arc try_new are not fully fallible", "statement": "Rc::try_new (and Arc::try_new without `unstable`) can abort: after the fallible box allocation an infallible one follows; Arc::try_new with `unstable` never aborts. Arc::try_clone never fails and shares the same allocation.", "quantifier": "every allocator behaviour", "why_tests_cant": "Failure points.", "anchors": ["src/rc.rs:FallibleRc", "src/arc.rs:FallibleArc"]}
{"id": "C48", "title": "TryHashMap behaves as a map", "statement": "TryHashMap insert/get/remove/len/iter agree with a finite map; insert's Err leaves the map unchanged; no operation allocates infallibly.", "quantifier": "every history, every allocator", "why_tests_cant": "Histories and failure points.", "anchors": ["src/hashmap.rs:TryHashMap"]}
{"id": "C49", "title": "TryHashMap::try_clone", "statement": "Ok: same key->value relation and len, no re-allocation after the initial reservation can make it abort; Err: source unchanged.", "quantifier": "every map, iteration order, clone behaviour and allocator", "why_tests_cant": "Failure points.", "anchors": ["src/hashmap.rs:TryClone for TryHashMap"]}
{"id": "C50", "title": "try_clone composes", "statement": "If the element type's try_clone is faithful (Ok(c) implies c equals the original) then so is try_clone of Option, Box, TryBox, Vec, TryVec, TryHashMap, BTreeMap over it, to any nesting depth.", "quantifier": "every value, allocator schedule", "why_tests_cant": "Nesting.", "anchors": ["src/try_clone.rs", "src/boxed.rs", "src/vec.rs", "src/btree/map.rs"]}
{"id": "C51", "title": "Owning iteration and drop free every node exactly once", "statement": "Consuming a map by any interleaving of next/next_back on into_iter followed by dropping the iterator (or just dropping the map) yields/drops every entry exactly once, frees every tree node exactly once, and never touches a freed node.", "quantifier": "every reachable map, every interleaving, every stopping point", "why_tests_cant": "Heap-level aliasing over all shapes and interleavings.", "anchors": ["src/btree/map.rs:IntoIter::next,next_back,Drop", "src/btree/node.rs:deallocate_and_ascend"]}
{"id": "C52", "title": "Parent links are always right", "statement": "In every reachable map each child's parent pointer and parent index designate the edge that points to it, so descend-then-ascend is the identity.", "quantifier": "every history", "why_tests_cant": "Links are patched by hand in every node operation.", "anchors": ["src/btree/node.rs:correct_parent_link,ascend,descend"]}
{"id": "C53", "title": "Node storage is never read uninitialised", "statement": "Every key/value/edge read inside node operations (shift, split, merge, steal, bulk steal, suffix move) reads an initialised slot below the array bound; every write is within the array of 11 (12) slots.", "quantifier": "every node state and index", "why_tests_cant": "Slot level reasoning for all lengths.", "anchors": ["src/btree/node.rs:slice_insert,slice_remove,split,merge,bulk_steal_left,bulk_steal_right,move_suffix"]}
{"id": "C54", "title": "Shrinking with a panicking destructor", "statement": "If the destructor of an element cut off by try_resize_no_copy (or Truncate::truncate) panics and the panic is caught, the vector left behind still covers an already dropped element, so that dropping the vector runs that destructor a second time: undefined behaviour. (A defect: the crate is not panic safe there.)", "quantifier": "every vector, every target length, every element whose destructor panics", "why_tests_cant": "The double drop only shows with a panicking destructor at the right position, and as undefined behaviour need not show at all.", "anchors": ["src/vec.rs: Truncate::truncate, try_resize_no_copy"]}
{"id": "C55", "title": "Unlawful Ord cannot break the set algebra", "statement": "Even if Ord is an arbitrary (inconsistent) comparison function, every next() of difference/intersection/union/symmetric_difference returns, the iterators come to an end after at most as many items as the sets have and yield only stored elements, and is_subset/is_superset/is_disjoint/contains/get return: no endless loop, no access past an end.", "quantifier": "every comparison function whatsoever (a different one at every call), every pair of histories, every number of next calls", "why_tests_cant": "Adversarial orders are unbounded; termination of loops on all of them.", "anchors": ["src/btree/set.rs:Difference::next,Intersection::next,Union::next,SymmetricDifference::next,is_subset"]}
{"id": "C56", "title": "Several shared iterators at once", "statement": "Any program that opens, clones, asks from both ends, measures and prints any number of iterators (iter, keys, values, range, set iter, set range) over one map sees each iterator as an independent sequence of its own: a clone goes on from where the original stood and does not disturb it, size_hint is exactly the number of entries left for iterators that promise it, and Debug lists what is still to come without consuming anything; bad ranges panic and nothing else does.", "quantifier": "every history of the map, every interleaving of start/clone/next/next_back/size_hint/Debug over any number of iterators, every bounds", "why_tests_cant": "The interleavings are unbounded, and clones of iterators at every inner position of trees of every shape are involved.", "anchors": ["src/btree/map.rs: Iter, Keys, Values, Range (Clone, Debug, size_hint)", "src/btree/set.rs: Iter, Range (Clone, Debug)"]}
{"id": "C57", "title": "Several set-algebra iterators at once", "statement": "Any program that opens, clones, asks and measures any number of difference/symmetric_difference/intersection/union iterators over two sets sees each of them as the sequence of the elements of its operation: a clone goes on from where the original stood, with an item already peeked too, and does not disturb it; at every moment the size hint holds for what is still to come.", "quantifier": "every pair of histories of the two sets, every interleaving of start/clone/next/size_hint", "why_tests_cant": "The interleavings and the sets are unbounded; clones with a peeked item arise at particular moments only.", "anchors": ["src/btree/set.rs: Difference, SymmetricDifference, Intersection, Union (Clone, size_hint)"]}
{"id": "C58", "title": "Byte layout of nodes and over-aligned keys", "statement": "For every size and alignment of the key and value types and every pointer size, the header, the eleven keys, the eleven values and the twelve edges of a node lie in its allocation, aligned and without overlap, an internal node starts with a leaf node, and the slice of keys a search looks at is exactly the node's keys (empty, and not outside the static header, for the shared empty root). On 32- and 64-bit targets that slice is refused by an assertion exactly when the key's alignment exceeds two pointers and the map is not empty: such maps panic on any lookup or drop (a defect).", "quantifier": "all sizes, all power-of-two alignments of key and value types, all power-of-two pointer sizes, shared or owned nodes", "why_tests_cant": "tests instantiate a handful of key/value types; the layout must be right for every type", "anchors": ["src/btree/node.rs: NodeHeader, LeafNode, InternalNode, into_key_slice, into_key_slice_mut", "src/btree/search.rs: search_linear"]}
{"id": "C59", "title": "Allocation budget of each call", "statement": "try_insert, the set's replace, and try_entry followed by or_try_insert ask the allocator at most height+2 times (once on a map that never held anything), the height being logarithmic in the number of entries; they fail exactly when the last request made was refused, and every node granted to a successful call is part of the map. try_entry alone asks only on a never-used map (even if the entry is just looked at). split_off of a non-empty map asks exactly once per level, try_clone at most once per node, append of two non-empty maps exactly once per node of the result and otherwise never. Every other call (lookup, removal, iteration, mutation, ranges, clear, consuming) never asks the allocator, so it cannot fail for lack of memory.", "quantifier": "all maps reachable by any calls with any comparison function, all keys, all allocator schedules, all programs in memory", "why_tests_cant": "the number of requests depends on the shape of the tree along the path; a bound must hold for every history and every refusal point", "anchors": ["src/btree/map.rs: try_insert, try_entry, or_try_insert, split_off, try_clone, append, from_sorted_iter, remove", "src/btree/node.rs: insert, split, push_level, new_leaf"]}
{"id": "C60", "title": "Memory footprint", "statement": "A map of n entries occupies at most n/4 + 1 nodes and at least n/11; after any program over any number of maps the allocated nodes are exactly those of its maps, so at most a quarter of the total number of entries plus one per map.", "quantifier": "every program (list of calls) over any number of maps, any comparison function, any allocator", "why_tests_cant": "removals, splits and merges could leave thin or stray nodes only after particular histories", "anchors": ["src/btree/map.rs: remove_kv, split_off, append, fix_right_edge", "src/btree/node.rs: split, merge, steal"]}
{"id": "C61", "title": "Panicking comparisons: insert, entry, remove, extend and append are safe to catch", "statement": "If the key comparison panics during try_insert, try_entry or remove, the map still holds exactly the entries it held before, with the same len, and remains a fully valid map; with a lawless order nothing becomes undefined either. If extend unwinds, exactly the pairs before some point of the list are inserted (when memory was refused, the last insertion is a failed one as in C15). If append unwinds (comparison or memory), other is empty and self holds exactly an ascending first part of the merged pairs (as many as comparisons were answered, if a comparison panicked); len, iteration, range, get and further insertions on it are correct. A call that does not unwind does exactly what the undisturbed call does.", "quantifier": "all reachable maps, all keys and lists, all allocator schedules, every number of comparisons answered before the panic, any further insertions afterwards", "why_tests_cant": "the panic may come at any comparison of any call on any tree shape", "anchors": ["src/btree/map.rs: try_insert, try_entry, remove, extend, append, from_sorted_iter, MergeIter::next", "src/btree/search.rs: search_tree, search_linear"]}
{"id": "C62", "title": "Panicking comparisons: split_off is not safe to catch, nor is remove after a caught append", "statement": "If the key comparison panics during split_off, len() keeps its old value; range and get see a first part of the old entries; if that is all of them the map iterates as before, otherwise iterating over it is undefined behaviour (the entries already moved are leaked). Calls that do not unwind do what the undisturbed call does. After an append that unwound, remove may be undefined behaviour, or, after a memory panic, may hit unreachable!(): witnesses.", "quantifier": "all reachable maps, all split keys, all allocator schedules, every number of comparisons answered before the panic", "why_tests_cant": "whether anything was moved depends on the tree shape, the key and the panicking comparison", "anchors": ["src/btree/map.rs: split_off, append, remove_kv", "src/btree/search.rs: search_linear"]}
{"id": "C63", "title": "After a failed insertion the map can not even be dropped", "statement": "If an insertion (try_insert, or_try_insert, or_try_insert_with, replace) into a map that is not empty returns Err, then in memory dropping that map is undefined behaviour: the destructor, trusting len(), goes past the last entry, frees the root and follows its null parent pointer; an owning iterator over it hands out some entries and the next call of next is undefined behaviour. A map that was empty before is unchanged, and every other map of the program can be dropped and gives exactly its entries.", "quantifier": "all programs over any number of maps, any key order (lawful or not), any allocator schedule, any refused request", "why_tests_cant": "needs every tree shape and every refused request; the undefined behaviour may go unnoticed in a run", "anchors": ["src/btree/map.rs: VacantEntry::try_insert, Drop for BTreeMap, Drop for IntoIter, IntoIter::next", "src/btree/node.rs: deallocate_and_ascend"]}
{"id": "C64", "title": "collect and extend when memory runs out", "statement": "from_iter/collect (and so the set operators -, |, &, ^, which collect) returns the map if there is enough memory; if its very first memory request is refused it panics and nothing has changed; if any later request is refused, the destructor of the unfinished map that runs while the panic unwinds is undefined behaviour, so the panic can not even be reported safely. Likewise, when extend panics for want of memory, the map extended can not be dropped afterwards, unless it had never held anything and the first request was refused, in which case nothing has changed.", "quantifier": "every list of pairs, every comparison function, every allocator behaviour, every memory a program over any number of maps can leave", "why_tests_cant": "the destructor misbehaves only when a chosen allocation fails, and whether it does for every list, order and failing request can not be enumerated", "anchors": ["src/btree/map.rs: FromIterator::from_iter, Extend::extend, Drop for BTreeMap, IntoIter", "src/btree/set.rs: FromIterator::from_iter, BitOr, BitAnd, BitXor, Sub"]}
{"id": "C65", "title": "append that unwinds: memory and destructors", "statement": "Whichever comparison panics and whichever memory request is refused during append, neither the call nor the unwinding is undefined behaviour. Every pair the two maps held is afterwards in self or other, or has been dropped, exactly once; other is empty if the call unwound; self can be dropped, which drops exactly as many pairs as len() says, and so can every other map. Nothing stays allocated after that, unless it was memory that was refused (then the unfinished right subtree is lost). With a lawful order self holds the union of the two maps if the call returned, and a first part of it otherwise, as long as the number of comparisons answered if it was a comparison that panicked.", "quantifier": "every program over any number of maps, every pair of its maps, every comparison function and point at which it panics, every allocator behaviour", "why_tests_cant": "the panic can strike at any comparison or allocation of a merge of any size, and double drops or use of moved-out slots are not visible to assertions", "anchors": ["src/btree/map.rs: append, from_sorted_iter, fix_right_edge, MergeIter::next, Drop for IntoIter, Drop for BTreeMap"]}
{"id": "C66", "title": "Destructors that panic", "statement": "If the destructor of a key or value panics while clear, Drop for BTreeMap or Drop for IntoIter is running destructors, nothing becomes undefined: the destructors of the pairs before it and its own have run, in ascending order, each once; no other pair is touched (the rest of the pairs and their nodes are leaked); the cleared map is an empty map that can go on being used; every other map is unaffected; and any later calls answer exactly what they would have answered had no destructor panicked. If no destructor panics, nothing is leaked.", "quantifier": "every program over any number of maps with any number of such panics at any of its clear and into_iter calls, any comparison function, every allocator behaviour, every destructor at which the panic strikes", "why_tests_cant": "a double drop or a use of freed memory after a caught panic is not visible to assertions, and the panic can strike at any pair of any tree shape", "anchors": ["src/btree/map.rs: clear, Drop for BTreeMap, Drop for IntoIter, IntoIter::next"]}
{"id": "C67", "title": "A copy that fails or panics halfway", "statement": "Whichever clone of a key or value fails or panics and whichever memory request is refused, try_clone and clone have no undefined behaviour. If the call does not finish, it has made clones of the first entries of the map, in order, and, if it was the clone of a value that failed, of the key of that value; every pair it cloned has been dropped again exactly once; every node in memory is as and where it was before the call, so nothing is leaked and no map has changed. If it finishes, the copy holds exactly one clone of each entry in order, nothing was dropped, and dropping the copy drops exactly these and gives the memory back.", "quantifier": "every program over any number of maps, each of its maps, every behaviour of the clones of keys and values (which may also use the allocator), every allocator behaviour", "why_tests_cant": "the failure can strike at any element or node of a tree of any shape, and a double drop, a leak or a partial tree freed wrongly is not visible to assertions", "anchors": ["src/btree/map.rs: TryClone for BTreeMap, Clone for BTreeMap, Drop for BTreeMap", "src/try_clone.rs"]}
{"id": "C68", "title": "split_off whose comparison panics, in memory", "statement": "If a comparison of keys panics during split_off, neither the call nor the unwinding has undefined behaviour, no destructor of an entry runs, len() is unchanged and every other map is unaffected. A first part of the entries is still in the map; the others are lost, and they are last entries of the map the undisturbed call would have returned (with a lawful order: their keys are not less than the key given). If none is lost the map is as before and nothing leaks. If some are lost, the owning iterator gives out the entries that are left and asked once more is undefined behaviour, as is dropping the map. If no comparison panics the call does what the undisturbed call does, and with enough comparisons answered none does.", "quantifier": "every program over any number of maps, each of its maps, any comparison function and key, every allocator behaviour, every comparison at which the panic strikes", "why_tests_cant": "the panic can strike at any comparison in a tree of any shape, and a leak or a dangling read after it is not visible to assertions", "anchors": ["src/btree/map.rs: split_off, Drop for BTreeMap, IntoIter::next", "src/btree/search.rs: search_node", "src/btree/node.rs: move_suffix"]}
{"id": "C69", "title": "Comparisons that panic in ordinary calls, in memory", "statement": "A program that catches the panics of its calls may go on: whatever comparison of keys panics in get, contains_key, get_key_value, get_mut, insert, remove, entry (and what is done with the entry), range, range_mut, extend, or the set's replace and take, nothing is undefined behaviour, neither during the call nor in any later one. A call other than extend that is unwound has changed no map and leaked nothing; an unwound extend has inserted a first part of its pairs. All other calls answer as if the unwound calls had not been made (or, for extend, had been given that part only), and dropping the maps at the end frees everything. A call none of whose comparisons panics is the undisturbed call; with a number of comparisons answered that grows with the height of the tree, none does.", "quantifier": "every program over any number of maps, any comparison function (for the answers: any lawful one), every allocator behaviour, every choice for each call of the comparison that panics", "why_tests_cant": "the panic can strike at any comparison of any call in trees of any shape, and a leak or dangling pointer shows only later, if at all", "anchors": ["src/btree/search.rs: search_tree, search_node, search_linear", "src/btree/map.rs: get, get_mut, try_entry, try_insert, remove, range, range_mut, range_search, Recover, Extend"]}
{"id": "C70", "title": "Printing a partly used owning iterator", "statement": "On an owning iterator (into_iter of a map or set), at every moment of its life, {:?} lists exactly the pairs not yet handed out, in order, and changes nothing; len() is their number; next and next_back go on handing out the first and last of them whatever was printed in between. When the iterator is dropped, exactly the pairs that were left are dropped and nothing stays allocated. In particular the printing reads no pair that has been moved out and no node that has been freed, although the iterator frees nodes as it goes.", "quantifier": "every program over any number of maps, any comparison function (for the contents: any lawful one), every allocator behaviour, every sequence of next, next_back, len and printing on each iterator", "why_tests_cant": "printing walks the half-dismantled tree with raw pointers; whether it touches a freed node or a moved-out pair depends on the tree's shape and on how much was taken at each end, and a wrong read may go unnoticed", "anchors": ["src/btree/map.rs: Debug for IntoIter, IntoIter::next, IntoIter::next_back, ExactSizeIterator for IntoIter, Drop for IntoIter, Range::next", "src/btree/set.rs: IntoIter"]}
{"id": "C71", "title": "Set-algebra iterators after a panicking comparison", "statement": "If comparing elements panics inside next of a difference, intersection, union or symmetric_difference iterator and the panic is caught, the iterator can be used on: over all further calls it hands out elements of the operation's result, each at most once and in ascending order, then None for ever. Union and symmetric difference lose nothing, whatever the comparison function; difference and intersection lose at most one element per panic (and sometimes do lose one). A call in which enough comparisons return does return.", "quantifier": "all pairs of reachable sets, all four iterators, every number of calls, every comparison of every call that panics; for union and symmetric difference also every comparison function", "why_tests_cant": "the point of the panic, its repetition, and the mode (stitching or searching) chosen from the sizes multiply; a test sees one panic in one pair of sets", "anchors": ["src/btree/set.rs: Difference::next, SymmetricDifference::next, Intersection::next, Union::next, cmp_opt, contains"]}
{"id": "C72", "title": "Keys whose comparisons answer anything", "statement": "Whatever comparing keys answers - contradicting itself or other comparisons, changing from one comparison to the next, panicking - no program of map calls is undefined behaviour. Each call finds some entry of the map, or some place between two entries, and does to it what the call says; a call unwound by a panic (other than append and split_off, see C65, C68) has changed nothing, except that extend has inserted some of its pairs. A range is some stretch of the entries; making one panics only if it is bounded at both ends or a comparison panicked. Nothing is lost, duplicated or leaked: dropping the maps at the end drops exactly the entries they hold and frees all memory. If the allocator never refuses and the comparisons made by append and split_off return, the program comes to its end. With the comparisons of an honest Ord the programs are the ordinary ones.", "quantifier": "all programs over any number of maps, all sequences of answers (or panics) of the comparisons of every call, all allocators", "why_tests_cant": "the answers of the comparisons form an infinite tree of possibilities; safety must not depend on Ord being lawful, and a test tries a few unlawful orders", "anchors": ["src/btree/search.rs: search_tree, search_node, search_linear", "src/btree/map.rs: get, try_insert, remove, try_entry, range, range_mut, range_search, append, try_split_off, MergeIter", "src/btree/set.rs: replace, take"]}
{"id": "C73", "title": "Maps in threads", "statement": "Maps may be moved to threads and shared between them by reference, as their Send and Sync impls promise. When threads that each have their own maps, and that all read some shared maps (get, get_key_value, contains_key, len, is_empty, iteration, ranges), take turns at every single access to a node, in any order: no access is undefined behaviour; no thread is about to touch a node that another one is about to change or free; every thread that keeps getting its turn comes to its end; each ends exactly as it could have ended alone, in a memory that holds only the shared maps and its own. With a lawful order and enough memory none of them panics, each gets the answers of the sorted lists, and dropping everything afterwards yields exactly the lists' entries and leaves nothing allocated.", "quantifier": "all programs that build the maps, all numbers of threads and assignments of maps to them, all sequences of calls of each thread, all interleavings at the granularity of one access to one node, all comparison functions (for answers: lawful ones), all allocators (their refusals and the free addresses they hand out, also addresses used before)", "why_tests_cant": "the number of interleavings is astronomical and a data race shows up in a test run only by luck; the Send/Sync impls are unsafe promises that rustc does not check", "anchors": ["src/btree/node.rs: unsafe impl Sync for NodeHeader, EMPTY_ROOT_NODE, unsafe impl Send/Sync for Root, unsafe impl Send/Sync for NodeRef", "src/btree/map.rs: BTreeMap, Iter, Range, get, range"]}
{"id": "C74", "title": "How many comparisons each call makes", "statement": "Whatever happened before and whatever the comparisons of keys answer, each call makes at most a bounded number of them: a call that looks for one key (get, get_mut, contains_key, try_insert, remove, try_entry and what follows, replace, take, split_off) among n entries at most 11*(log2(n+1)/2 + 1); opening a range or range_mut at most twice that plus two; append of r entries to l at most l + r - 1; extend with k items at most k lookups in a map of n + k entries; everything else (clone, iteration, len, clear, drop, ...) none. So if that many comparisons return, the call returns, whatever later comparisons would do, even for append and split_off.", "quantifier": "all programs, all calls, all (also inconsistent and panicking) comparisons, all allocators", "why_tests_cant": "a test counts the comparisons of the inputs it tries; the bound is a function of the size and must hold for every tree shape and every answer", "anchors": ["src/btree/search.rs: search_tree, search_node, search_linear", "src/btree/map.rs: get, try_insert, remove, try_entry, range, range_search, append, MergeIter::next, try_from_sorted_iter, extend, split_off"]}
{"id": "C75", "title": "Mutable iterators looked at while in use", "statement": "iter_mut, values_mut and range_mut may be used in any way: next and next_back in any order, writes through any of the references handed out so far, size_hint/len and {:?} in between. Every answer is that of a cursor over the map's list (for range_mut: over the part within the bounds); size_hint of iter_mut and values_mut is the exact number of entries to come; {:?} shows exactly the entries still to come, in order, and changes nothing; each write changes exactly the entry whose reference was used; at the end the map is the list with the written values, no other map has changed, nothing leaked. range_mut panics exactly for bounds out of order, before anything is handed out.", "quantifier": "all programs that build the maps, all sequences of takes, writes and looks, all allocators, all comparison functions (for range_mut and the sorted list: lawful ones)", "why_tests_cant": "the references handed out alias the nodes the iterator still walks over and {:?} walks over them a second time; every interleaving on every tree shape has to be right, and a wrong one may be undefined behaviour without visible effect", "anchors": ["src/btree/map.rs: IterMut, ValuesMut, RangeMut, Debug for RangeMut, iter_mut, values_mut, range_mut, RangeMut::next_unchecked, next_back_unchecked"]}
{"id": "C76", "title": "Entries held and used, with closures that panic", "statement": "An entry got from try_entry may be looked at (key, get, {:?}), changed (and_modify, get_mut, OccupiedEntry::insert) any number of times and used up in any way (dropped, remove, remove_entry, into_mut, into_key, try_insert, or_try_insert, or_try_insert_with, or_default). Each answer and the map's entries at the end are what the list of entries, cut at the key, gives: nothing before or after that place changes. If the closure of and_modify panics, the map is whole and has what the closure had written; if the closure of or_try_insert_with or V::default() panics, the map is exactly as it was before that call. Nothing is undefined and nothing leaks in any of these cases; other maps are untouched.", "quantifier": "all programs that build the maps, all keys, all sequences of uses of the entry, all closures (as functions that may panic), all comparison functions (with lawful ones: the place is that of the key in the sorted list), all allocators that do not refuse during the calls", "why_tests_cant": "the entry holds raw handles into the tree while it is changed; every sequence of uses at every position in every tree shape has to keep them valid, and a panic can come at each step", "anchors": ["src/btree/map.rs: Entry, OccupiedEntry, VacantEntry and all their methods, Debug for Entry/VacantEntry/OccupiedEntry, try_entry"]}
{"id": "C77", "title": "Destructors and iterators that panic inside try_insert, extend, collect and append", "statement": "When the caller's own code panics in the middle of a BTreeMap call, be it the destructor of a key or value that is being replaced (try_insert, extend, append) or the iterator that feeds extend or collect, and the panic is caught, no undefined behaviour has happened and no entry is lost or dropped twice. try_insert unwound by the destructor of the caller's (equal) key leaves every map as it was; extend leaves the map extended by a first part of the items (all of them if it was the iterator that panicked); collect drops the entries collected so far and frees every node; append leaves self holding a first part of the union, other empty, and has dropped every other pair exactly once. All maps can afterwards be dropped, leaving nothing allocated (unless memory was refused).", "quantifier": "every program over any number of maps that ends without a refused insertion, every key order (lawful or not; contents for lawful ones), every allocator, every map, item list, point at which the iterator panics and every destructor that panics", "why_tests_cant": "A test panics in one destructor at one place in one tree; the claim is about every destructor, in every tree, in every memory.", "anchors": ["src/btree/map.rs: try_insert, try_entry, Extend::extend, FromIterator::from_iter, append, from_sorted_iter, MergeIter::next, Drop for IntoIter"]}
{"id": "C78", "title": "Set algebra, printing and set operators in memory", "statement": "After any program over BTreeSets, for any two of its sets (or one of them twice): any program that opens, clones, asks, measures and prints difference, symmetric_difference, intersection and union iterators over them runs to its end without undefined behaviour and without changing the memory; is_subset, is_superset, is_disjoint and {:?} likewise. With a lawful order each iterator hands out exactly the elements of its mathematical operation and every size hint holds, the predicates answer the mathematical question, and the operators -, ^, &, | build the new set of cloned elements, leave the two sets and all others alone, and dropping everything afterwards frees every node; when the first allocation is refused they panic and nothing has changed, and when a later one is refused the unwinding is undefined behaviour (C64). With an unlawful order everything still ends, hands out only stored elements and touches nothing.", "quantifier": "every program over any number of sets that ends without a refused insertion, every pair of its sets, every element order (contents for lawful ones), every allocator, every sequence of iterator steps, every Clone that returns an equal element", "why_tests_cant": "The strategy (stitch, search, iterate) depends on sizes and bounds, the iterators keep raw pointers into both trees, and the number of interleavings of several iterators is unbounded; tests see single pairs of small sets.", "anchors": ["src/btree/set.rs: difference, symmetric_difference, intersection, union, is_subset, is_superset, is_disjoint, Sub, BitXor, BitAnd, BitOr, Debug, from_iter, Difference, SymmetricDifference, Intersection, Union"]}
{"id": "C79", "title": "Comparing, hashing, printing and indexing maps in memory", "statement": "After any program over BTreeMaps, any sequence of ==, partial_cmp, cmp, hash, {:?} and indexing on any of its maps (also a map against itself) runs to its end without undefined behaviour and without changing a byte of memory, whatever the comparisons of the user's key and value types answer. == is true exactly if the entry sequences have the same length and equal entries; partial_cmp and cmp give the answer of the first pair of entries (by key, then value) that are not equal, also when it is None, and otherwise the shorter map is less; hash feeds the hasher the entries in key order and nothing else; {:?} shows all entries in key order; m[q] gives the value stored for q and panics exactly if there is none.", "quantifier": "every program over any number of maps that ends without a refused insertion, every allocator, every key order (contents and indexing for lawful ones), every sequence of questions about any of its maps, every eq/partial_cmp/cmp of keys and values (lawful or not), every hasher", "why_tests_cant": "The trees of two maps with the same entries differ with their histories; the two iterators walk raw pointers through both at different paces; tests compare a few maps with well-behaved comparisons.", "anchors": ["src/btree/map.rs: Hash::hash, PartialEq::eq, PartialOrd::partial_cmp, Ord::cmp, Debug::fmt, Index::index", "src/btree/set.rs: derives of BTreeSet"]}
{"id": "C80", "title": "Threads that compare, hash, print and combine shared maps and sets", "statement": "Any number of threads may at the same time compare, hash, print and index the same maps, and walk through, clone and print set-algebra iterators over the same sets or ask is_subset, is_superset, is_disjoint: in every interleaving of the single accesses to nodes there is no undefined behaviour, the memory never changes, no thread is unwound, every thread that has come to its end has exactly the right answers, and every thread ends after a fixed number of its own turns, whatever the others do.", "quantifier": "every program that ends without a failed allocation and the maps or sets it leaves, every number of threads, every list of questions per thread, every way to do them in single reads, every schedule", "why_tests_cant": "There are infinitely many schedules, and thread tests see a few of them.", "anchors": ["src/btree/map.rs: PartialEq, PartialOrd, Ord, Hash, Debug, Index for BTreeMap", "src/btree/set.rs: difference, symmetric_difference, intersection, union, is_subset, is_superset, is_disjoint, Debug"]}
{"id": "C81", "title": "Vectors when destructors, cloners, closures and iterators panic", "statement": "Any history of calls on a vector (the fallible methods, pop, clear, assigning and exchanging elements) in which destructors, try_clone, the closure of resize_with or an index check panic, and the panics are caught, leaves a sound vector after every call, makes no infallible allocation, and every object handed over or produced is in the end dropped exactly once or handed back - provided no try_resize_no_copy cuts off an element whose destructor panics, and that condition is exact: after such a call, and only then, dropping the vector is undefined behaviour. A life may also end with into_iter, which hands out the elements from both ends in order and drops what is left. The functions that build a vector (try_clone, TryFrom, try_from_elem, concat, try_from_iterator) account for every object too, whatever panics, including the iterator.", "quantifier": "every history of calls, every element type with any set of panicking destructors, cloner, closure, iterator, every allocator and growth policy, every sequence of next and next_back", "why_tests_cant": "Panics can come from every element at every step; double drops and leaks after a caught panic need not show.", "anchors": ["src/vec.rs: FallibleVec for Vec, TryVec, Truncate, TryExtend, SpecFromElem, TryFromIterator, IntoIterator for TryVec"]}
{"id": "C82", "title": "Cloning a shared map in several threads", "statement": "clone and try_clone take &self, and keep to it: at no point of their run do they store into a node that was there when the call began, nor free one, whatever the order on keys, wherever the allocator puts new nodes and wherever it refuses (so also when a half-made copy is thrown away), and none of their accesses is undefined behaviour. So threads may clone a shared map while others read and clone it: with every interleaving of the single accesses there is no undefined behaviour and no data race, every thread ends as it could have ended alone, a thread that goes on with its copy gets exactly the answers of a map of its own that held at the beginning what the shared one holds, and the shared maps and all copies can be dropped, yielding the right contents and leaving nothing allocated.", "quantifier": "all maps and contents, all orders on keys for the absence of undefined behaviour and races (lawful ones for the answers), all cloners of keys and values, all numbers of threads and programs of calls, all interleavings of their single accesses to nodes, all allocator behaviours and placements", "why_tests_cant": "A race between a copying thread and a reader shows only under particular interleavings of single accesses; a store into the original during cloning that is undone later, or that happens only when an allocation fails half-way, changes no result in a single-threaded test.", "anchors": ["src/btree/map.rs: try_clone", "src/btree/map.rs: clone", "src/btree/map.rs: clone_subtree", "src/btree/node.rs: Send", "src/btree/node.rs: Sync"]}
{"id": "C83", "title": "Going on after a failed insertion", "statement": "A program may go on using all its maps after insertions returned Err for want of memory, as long as on the maps they hit it calls neither iter, iter_mut, into_iter, append, clear nor drop: then nothing undefined happens, whatever the order on keys. With a lawful order every answer is the one a sorted list would give, up to the following: a call may return Err; an insertion that does so found no equal key, leaves the other maps alone and may lose entries of its own map (nothing if that was empty); len and is_empty of a map hit by a failed insertion may overestimate, never underestimate; split_off of such a map may give another such map. Copying such a map with try_clone gives a map with the same entries that may again be used without restriction; the maps that were not hit can be dropped at the end and give back exactly their entries.", "quantifier": "all programs of calls on any number of maps, with any number of failed insertions at any points, all allocator behaviours and placements of nodes, all orders on keys for the absence of undefined behaviour (lawful ones for the answers)", "why_tests_cant": "Each combination of the insertion that fails, the request at which it fails and the calls made on the damaged tree afterwards gives another tree; a call that trusts the wrong length reads outside a node only for some of them, and does so silently.", "anchors": ["src/btree/map.rs: try_insert", "src/btree/map.rs: VacantEntry::try_insert", "src/btree/map.rs: try_clone", "src/btree/map.rs: split_off", "src/btree/map.rs: remove", "src/btree/map.rs: range", "src/btree/map.rs: drop"]}
{"id": "C84", "title": "Exactly what a failed insertion loses, in the map and in memory", "statement": "When an insertion (try_insert, or_try_insert, or_try_insert_with, replace) fails for want of memory, the entries that a success would have left are a list before ++ (d :: lost) ++ after such that the map keeps exactly before ++ after: one stretch is gone and nothing else. Either the stretch is just the pair of the call, or it has at least five entries (which may or may not include that pair). d is dropped; the other entries, lost, sit in nodes that no map owns any more: one well-formed tree, which could be dropped if the program knew of it, and which holds exactly those entries. At every point of a program that goes on after failed insertions every allocated node belongs to exactly one of its maps or of the trees lost so far (at most one per failed call); after dropping the maps that were not hit and those trees, just the nodes of the maps that were hit are left.", "quantifier": "every program over any number of maps that goes on after failed insertions, every allocation schedule, every placement of nodes, every map, key and value; the shape of the memory for every key order, the contents for lawful ones; for the map alone every map reached by any operations including earlier failures", "why_tests_cant": "which stretch is lost depends on the whole shape of the tree and on which of the requests of one call is refused, and a leak is a statement about every allocated node", "anchors": ["src/btree/map.rs: VacantEntry::try_insert, BTreeMap::try_insert", "src/btree/node.rs: Handle::insert, Handle::split, Root::push_level"]}
{"id": "C85", "title": "Operations on two sets make few comparisons", "statement": "However often next is called on the iterator over the difference, intersection, union or symmetric difference of sets of n and m elements, the calls make, taken together, at most n + m - 1 comparisons of elements; for the difference with, and the intersection with, a set at least sixteen times as large they make at most one search of O(log m) comparisons for each element of the small one instead. is_subset makes none if n > m, at most m if m < 16 n, and at most n searches otherwise; is_superset and is_disjoint accordingly. The operators -, ^, & and | make in addition at most one search in the set they build for each element they collect.", "quantifier": "all pairs of sets reached by any operations, every comparison function (lawful or not, even a different one for each call), any number of calls of next", "why_tests_cant": "a bound on the work for all sizes and all interleavings of the two sets, and for inconsistent orders", "anchors": ["src/btree/set.rs: difference, intersection, symmetric_difference, union, is_subset, is_superset, is_disjoint, Difference::next, Intersection::next, SymmetricDifference::next, Union::next, Sub, BitXor, BitAnd, BitOr"]}
{"id": "C86", "title": "Programs that use the whole map API in turns", "statement": "A program over any number of maps that does, one after the other and as often as it likes, any of: the calls of the API; ==, partial_cmp, cmp, hash, {:?} and indexing; iter_mut, values_mut and range_mut used, printed and measured in any way; entries held, looked at, changed by closures that may panic, and used up in any way - is never undefined, for any key order, comparisons and allocator. With a lawful order every answer is the one sorted lists give at that moment, and answers and final entries are determined by the program; a call that finds no memory leaves all maps as they were, unless it is an insertion, at which the program stops. If no request is refused the program reaches its end with no panic. Dropping the maps at the end frees everything and hands over exactly the entries of the last step.", "quantifier": "all programs of any length mixing all these uses, all key orders, comparison functions and hashers, all allocators and placements", "why_tests_cant": "unboundedly many mixtures and histories; each use must leave the memory fit for every other", "anchors": ["src/btree/map.rs: BTreeMap (whole API), IterMut, ValuesMut, RangeMut, Entry, OccupiedEntry, VacantEntry, PartialEq, PartialOrd, Ord, Hash, Debug, Index"]}
{"id": "C87", "title": "Programs that use the whole set API in turns", "statement": "A program over any number of sets that does, one after the other and as often as it likes, any of: the calls of the API; comparisons, hashing and printing; set-algebra iterators opened, cloned, used, measured and printed in any way; is_subset, is_superset and is_disjoint; the operators -, ^, & and |, each of which makes one more set that the program goes on using, and whose panics it catches - is undefined only if an operator runs out of memory after its first node. With a lawful element order every answer is the mathematical one for the sets as they are at that moment, and an operator makes exactly the set of clones of its mathematical result; an operator or other call that finds no memory leaves all sets as they were, unless it is an insertion, at which the program stops. If no request is refused nothing is undefined and nothing panics. In any order, the sets an operator makes hold only clones of elements of its operands. Dropping the sets at the end frees everything.", "quantifier": "all programs of any length mixing all these uses on all their sets (the same set twice included), all element orders, clone functions, comparison functions, allocators and placements", "why_tests_cant": "unboundedly many mixtures and histories, in which sets made by operators are operands again", "anchors": ["src/btree/set.rs: BTreeSet (whole API), Difference, SymmetricDifference, Intersection, Union, Sub, BitXor, BitAnd, BitOr, is_subset, is_superset, is_disjoint, Debug"]}
{"id": "C88", "title": "Threads that use the whole map API", "statement": "Threads that each have maps of their own, and that do anything at all with these (all calls, mutable iterators used, measured and printed in any way, entries held and used with closures that panic, comparisons, hashing, printing, indexing), while all of them look at some shared maps - lookups, iteration, ==, partial_cmp, cmp, hash, {:?} and indexing, also between a shared map and an own one - and clone them, take turns at every single access to a node, in any order. Whatever the key order, the comparison functions and the allocator: no access is undefined behaviour; no thread is about to touch a node that another one is about to change or free; every thread that keeps getting its turn comes to its end, stops where an insertion failed, or panics; each ends exactly as it could have ended alone; all answers that do not depend on the key order are right; and when all have come to their ends, dropping all maps hands over the shared lists unchanged and those the threads left, and frees everything. With a lawful order all answers of all threads are those of sorted lists, or a call found no memory and changed nothing; if no request is refused no thread panics or stops, and what each is told and leaves does not depend on the schedule.", "quantifier": "all programs that build the maps, all numbers of threads and assignments of maps to them, all programs of the threads over the whole API, all interleavings at the granularity of one access to one node, all key orders, comparison functions and allocators", "why_tests_cant": "the number of interleavings is astronomical, a data race shows up in a test run only by luck, and a comparison, a mutable iterator or a held entry takes many accesses during which other threads run", "anchors": ["src/btree/node.rs: unsafe impl Sync for NodeHeader, EMPTY_ROOT_NODE, unsafe impl Send/Sync for Root, unsafe impl Send/Sync for NodeRef", "src/btree/map.rs: BTreeMap (whole API), IterMut, ValuesMut, RangeMut, Entry, PartialEq, PartialOrd, Ord, Hash, Debug, Index", "src/boxed.rs, src/vec.rs: TryClone"]}
{"id": "C89", "title": "Threads that use the whole set API", "statement": "Threads that each have sets of their own, and that do anything at all with these (calls, comparisons, set-algebra iterators, operators, printing), while all of them look at some shared sets - lookups, iteration, difference / symmetric_difference / intersection / union used in any way, is_subset, is_superset, is_disjoint, comparisons, printing, also between a shared set and an own one - clone them, and make new sets out of them and their own with the operators -, ^, & and |, take turns at every single access to a node, in any order. Whatever the order of the elements and the comparison functions, and whatever the allocator unless operators are used (an operator that runs out of memory after its first node is undefined behaviour by itself, C64): no access is undefined behaviour; no thread is about to touch a node that another one is about to change or free; every thread that keeps getting its turn comes to an end; each ends exactly as it could have ended alone; all answers that do not depend on the order are right, and operators make sets of clones of elements of the two sets; and when all have come to their ends, dropping all sets hands over the shared lists unchanged and those the threads left, and frees everything. With a lawful order all answers are those of sorted lists and mathematical sets; if no request is refused nothing panics or stops, and what each thread leaves does not depend on the schedule.", "quantifier": "all programs that build the sets, all numbers of threads and assignments of sets to them, all programs of the threads over the whole set API, all interleavings at the granularity of one access to one node, all orders, comparison functions, clone functions and allocators", "why_tests_cant": "the number of interleavings is astronomical; an operator reads two sets with two iterators at once while it inserts into a third and other threads run, and a data race shows up in a test run only by luck", "anchors": ["src/btree/node.rs: EMPTY_ROOT_NODE, unsafe impl Send/Sync for Root, unsafe impl Send/Sync for NodeRef", "src/btree/set.rs: BTreeSet (whole API), Difference, SymmetricDifference, Intersection, Union, Sub, BitXor, BitAnd, BitOr, FromIterator"]}
{"id": "C90", "title": "Set algebra, predicates and operators in memory after a panicking comparison", "statement": "After any program that uses the whole set API, take any two of its sets (or one twice) and let comparisons of elements panic. In next of a difference, symmetric_difference, intersection or union iterator, any number of times, the panics caught: nothing is undefined and the memory is as it was; the calls that return hand out elements of the operation's result, each at most once and in order, then None for ever, at most one is missing for every panic (none for union and symmetric difference, whatever the comparison function), the iterator can be used on and hands out just what remains, and a call in which enough comparisons return does return. In is_subset, is_superset, is_disjoint: nothing has changed, and otherwise the answer is the usual one. In an operator -, ^, & or |, be it in reading the two sets or in inserting into the new one: what there was of the new set has been dropped, all memory is as it was, and dropping the sets hands over their elements and leaves nothing allocated; otherwise it does what it does undisturbed. Predicates and operators are unwound only if fewer than some number of comparisons return.", "quantifier": "all programs over the whole set API, all pairs of their sets, all four operations, every comparison of every call that panics, all allocators and placements; for predicates and operators, and for union and symmetric difference, also every comparison function", "why_tests_cant": "the panic can come at any comparison, of the two iterators or of the insertion, when the new set is of any shape; what is read or dropped wrongly then is undefined behaviour or a leak, which an ordinary test does not see", "anchors": ["src/btree/set.rs: Difference::next, SymmetricDifference::next, Intersection::next, Union::next, is_subset, is_superset, is_disjoint, Sub, BitXor, BitAnd, BitOr, FromIterator", "src/btree/map.rs: Drop, IntoIter, try_insert", "src/btree/search.rs: search_tree"]}
