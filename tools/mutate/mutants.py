"""Seeded bugs: each replaces one piece of text of a model definition by what a plausible mistake in the Rust code would give."""
MUTANTS = []
def mut(id, file, defn, old, new, claim, **kw):
    MUTANTS.append(dict(id=id, file=file, defn=defn, old=old, new=new, claim=claim, **kw))

N = 'BTree/Node.lean'
mut('N01', N, 'searchFrom', '| .gt => searchFrom bor q (i + 1) rest\n    | .eq => (i, true)\n    | .lt => (i, false)\n\n/-- src/btree/search.rs:49', '| .lt => searchFrom bor q (i + 1) rest\n    | .eq => (i, true)\n    | .gt => (i, false)\n\n/-- src/btree/search.rs:49', 'C01: lookup compares the wrong way round')
mut('N02', N, 'searchFrom', '| .eq => (i, true)\n    | .lt => (i, false)\n\n/-- src/btree/search.rs:49', '| .eq => (i + 1, true)\n    | .lt => (i, false)\n\n/-- src/btree/search.rs:49', 'C01: a found key is reported one slot too far')
mut('N03', N, 'searchFrom', '| .eq => (i, true)\n    | .lt => (i, false)\n\n/-- src/btree/search.rs:49', '| .eq => (i, false)\n    | .lt => (i, false)\n\n/-- src/btree/search.rs:49', 'C14/C01: equal keys are not recognised, so a key is inserted twice')
mut('N04', N, 'searchTree', 'searchTree bor q h c (i :: up)', 'searchTree bor q h c ((i + 1) :: up)', 'C01: descending records the wrong parent index')
mut('N05', N, 'sliceInsert', 'l.take idx ++ x :: l.drop idx', 'l.take idx ++ x :: l.drop (idx + 1)', 'C01: slice_insert overwrites the element at the index instead of shifting it')
mut('N06', N, 'sliceRemove', 'l.take idx ++ l.drop (idx + 1))', 'l.take (idx + 1) ++ l.drop (idx + 1))', 'C02: slice_remove does not close the gap')
mut('N07', N, 'Tree.insertFitInternal', 'sliceInsert t.edges (idx + 1) e', 'sliceInsert t.edges idx e', 'C01/C04: the new right sibling is placed left of the split node')
mut('N08', N, 'Tree.splitLeaf', '{ t with kvs := t.kvs.take idx }, kv, { kvs := t.kvs.drop (idx + 1), edges := [] }', '{ t with kvs := t.kvs.take idx }, kv, { kvs := t.kvs.drop idx, edges := [] }', 'C04/C06: the middle key of a leaf split is duplicated')
mut('N09', N, 'Tree.splitLeaf', '({ t with kvs := t.kvs.take idx }, kv, { kvs := t.kvs.drop (idx + 1), edges := [] })', '({ t with kvs := t.kvs.take (idx - 1) }, kv, { kvs := t.kvs.drop (idx + 1), edges := [] })', 'C01: a leaf split loses the last key of the left half')
mut('N10', N, 'Tree.splitInternal', 'edges := t.edges.take (idx + 1) }, kv,\n       { kvs := t.kvs.drop (idx + 1), edges := t.edges.drop (idx + 1) })', 'edges := t.edges.take idx }, kv,\n       { kvs := t.kvs.drop (idx + 1), edges := t.edges.drop idx })', 'C21: an internal split moves one edge too many')
mut('N11', N, 'Tree.splitInternal', '{ kvs := t.kvs.drop (idx + 1), edges := t.edges.drop (idx + 1) })', '{ kvs := t.kvs.drop (idx + 1), edges := t.edges.drop (idx + 2) })', 'C01/C21: an internal split forgets an edge')
mut('N12', N, 'canMerge', 'l.len + r.len + 1 ≤ CAPACITY))', 'l.len + r.len ≤ CAPACITY))', 'C21: two children that do not fit with their separator are merged')
mut('N13', N, 'merge', 'kvs := l.kvs ++ kv :: r.kvs, edges := l.edges ++ r.edges', 'kvs := r.kvs ++ kv :: l.kvs, edges := r.edges ++ l.edges', 'C02/C04: merge concatenates in the wrong order')
mut('N14', N, 'merge', 'kvs := l.kvs ++ kv :: r.kvs,', 'kvs := l.kvs ++ r.kvs,', 'C02: merge drops the separator')
mut('N15', N, 'merge', 'let (_, edges) ← sliceRemove t.edges (i + 1)\n  let edges ← setE edges i m', 'let (_, edges) ← sliceRemove t.edges i\n  let edges ← setE edges i m', 'C02: merge removes the left edge (same result here: the merged child is put at the remaining edge)')
mut('N16', N, 'stealLeft', 'let r ← r.pushFront h old e', 'let r ← r.pushFront h kv e', 'C02/C04: steal_left pushes the stolen pair instead of the separator')
mut('N17', N, 'stealLeft', 'let kvs ← setE t.kvs i kv\n  let r ← getE t.edges (i + 1)', 'let kvs ← setE t.kvs i old\n  let r ← getE t.edges (i + 1)', 'C02: steal_left does not update the separator')
mut('N18', N, 'stealRight', 'let l ← l.pushAny h old e', 'let l ← l.pushAny h kv e', 'C02: steal_right pushes the stolen pair instead of the separator')
mut('N19', N, 'Tree.pop', '.ok ({ kvs := t.kvs.take idx, edges := t.edges.take (idx + 1) }, kv, some e)', '.ok ({ kvs := t.kvs.take idx, edges := t.edges }, kv, some e)', 'C51/C21: pop leaves the moved edge behind (two owners)')
mut('N20', N, 'Tree.pop', 'let e ← getE t.edges (idx + 1)', 'let e ← getE t.edges idx', 'C02: pop hands out the wrong edge')
mut('N21', N, 'Tree.popFront', 'let (e, edges) ← sliceRemove t.edges 0', 'let (e, edges) ← sliceRemove t.edges 1', 'C02: pop_front hands out the second edge')
mut('N22', N, 'bulkStealLeft', 'let up ← getE l.kvs newLeftLen\n', 'let up ← getE l.kvs (newLeftLen + 1)\n', 'C09: bulk_steal_left puts the wrong pair into the parent')
mut('N23', N, 'bulkStealLeft', 'edges := l.edges.drop (newLeftLen + 1) ++ r.edges }', 'edges := l.edges.drop newLeftLen ++ r.edges }', 'C09/C21: bulk_steal_left moves one edge too many')
mut('N24', N, 'bulkStealRight', 'kvs := l.kvs ++ parentKv :: r.kvs.take (count - 1)', 'kvs := l.kvs ++ parentKv :: r.kvs.take count', 'C09: bulk_steal_right duplicates the new separator')
mut('N25', N, 'bulkStealRight', 'let r\' := { kvs := r.kvs.drop count, edges := r.edges.drop count }', 'let r\' := { kvs := r.kvs.drop (count - 1), edges := r.edges.drop count }', 'C09: bulk_steal_right leaves the new separator in the right child')
mut('N26', N, 'bulkStealRight', 'edges := l.edges ++ r.edges.take count }', 'edges := l.edges ++ r.edges.take (count - 1) }', 'C09/C21: bulk_steal_right loses an edge')
mut('N27', N, 'Tree.moveSuffix', '{ kvs := t.kvs.drop idx, edges := right.edges ++ t.edges.drop (idx + 1) }', '{ kvs := t.kvs.drop (idx + 1), edges := right.edges ++ t.edges.drop (idx + 1) }', 'C09: split_off loses the pair at the split point')
mut('N28', N, 'Tree.moveSuffix', '({ kvs := t.kvs.take idx, edges := t.edges.take (idx + 1) },\n       { kvs := t.kvs.drop idx,', '({ kvs := t.kvs.take (idx + 1), edges := t.edges.take (idx + 1) },\n       { kvs := t.kvs.drop idx,', 'C09: split_off keeps the pair at the split point in both halves')

M = 'BTree/Map.lean'
mut('M01', M, 'leafInsert', 'if idx ≤ B then do\n        let l ← l.insertFitLeaf idx kv', 'if idx < B then do\n        let l ← l.insertFitLeaf idx kv', 'C01/C21: a key belonging at the split point goes into the right half with an underflowing index')
mut('M02', M, 'leafInsert', 'let r ← r.insertFitLeaf (idx - (B + 1)) kv\n        .ok (.split l mid r true ⟨[], idx - (B + 1)⟩, a)', 'let r ← r.insertFitLeaf (idx - B) kv\n        .ok (.split l mid r true ⟨[], idx - B⟩, a)', 'C01/C04: insertion into the right half is off by one')
mut('M03', M, 'leafInsert', 'if t.len < CAPACITY then do\n    let t ← t.insertFitLeaf idx kv', 'if t.len ≤ CAPACITY then do\n    let t ← t.insertFitLeaf idx kv', 'C21: a full leaf is not split')
mut('M04', M, 'leafInsert', 'let (l, mid, r) ← t.splitLeaf B', 'let (l, mid, r) ← t.splitLeaf (B + 3)', 'C19: leaves are split unevenly, minimum occupancy is violated')
mut('M05', M, 'internalInsert', 'let l ← l.insertFitInternal i kv edge\n        .ok (.split l mid r false (at_ i), a)', 'let l ← l.insertFitInternal i kv edge\n        .ok (.split l mid r true (at_ i), a)', 'C17: the reference returned by an insertion points into the wrong half')
mut('M06', M, 'internalInsert', 'if i ≤ B then do\n        let l ← l.insertFitInternal', 'if i < B then do\n        let l ← l.insertFitInternal', 'C01/C21: the boundary of the internal split')
mut('M07', M, 'internalInsert', 'loc.under (if inRight then j + 1 else j)', 'loc.under j', 'C17: the reference returned by an insertion that split a child points at the left half')
mut('M08', M, 'Map.vacantInsert', 'let length := m.length + 1', 'let length := m.length', 'C06: insertion does not count the new entry')
mut('M09', M, 'Map.vacantInsert', 'let top : Tree K V := ⟨[], [l]⟩\n      let top ← top.pushInternal mid r', 'let top : Tree K V := ⟨[], [r]⟩\n      let top ← top.pushInternal mid l', 'C04: the new root has its children swapped')
mut('M10', M, 'Map.vacantInsert', '{ m with height := m.height + 1, root := top, length := length }', '{ m with height := m.height, root := top, length := length }', 'C21: push_level does not update the height')
mut('M11', M, 'Map.vacantInsert', 'loc.under (if inRight then 1 else 0)', 'loc.under (if inRight then 0 else 1)', 'C17: the reference returned after a root split is wrong')
mut('M12', M, 'Map.ensureRootIsOwned', 'else (.error .allocError, m, a)\n  else (.ok (), m, a)', 'else (.error .allocError, { m with shared := false }, a)\n  else (.ok (), m, a)', 'C15: a failed root allocation leaves the shared root marked as owned')
mut('M13', M, 'Map.ensureRootIsOwned', 'if m.shared then\n', 'if !m.shared then\n', 'C01: an owned root is replaced by an empty one')
mut('M14', M, 'Map.tryInsert', 'let (m, old) ← m.setVal hd v\n    .ok (.ok (some old), m, a)', 'let (m, _) ← m.setVal hd v\n    .ok (.ok (some v), m, a)', 'C01: try_insert returns the new value instead of the old one')
mut('M15', M, 'Map.tryInsert', '| .ok _ => .ok (.ok none, m, a)\n\n/-! ### the rest', '| .ok _ => .ok (.ok (some v), m, a)\n\n/-! ### the rest', 'C01: try_insert claims to have replaced something')
mut('M16', M, 'Map.orTryInsert', '| .occupied hd => .ok (.ok hd, m, a)\n  | .vacant k hd => m.vacantInsert hd k v a', '| .occupied hd => do\n    let (m, _) ← m.setVal hd v\n    .ok (.ok hd, m, a)\n  | .vacant k hd => m.vacantInsert hd k v a', 'C17: or_try_insert overwrites an existing value')
mut('M17', M, 'Map.orTryInsertWith', '| .occupied hd => .ok (.ok hd, m, a, false)', '| .occupied hd => .ok (.ok hd, m, a, true)', 'C17: or_try_insert_with calls the closure for an occupied entry')
mut('M18', M, 'Map.andModify', 'let (m, _) ← m.setVal hd (f kv.2)\n    .ok (m, .occupied hd)', 'let (m, _) ← m.setVal hd (f (f kv.2))\n    .ok (m, .occupied hd)', 'C17: and_modify applies the closure twice')
mut('M19', M, 'handleUnderfull', 'if 0 < i then do  -- parent.left_kv() is Ok', 'if 1 < i then do  -- parent.left_kv() is Ok', 'C21: the last child of a two-child node has no sibling to merge with (unreachable!)')
mut('M20', M, 'handleUnderfull', 'let t ← stealLeft h t (i - 1)', 'let t ← stealRight h t (i - 1)', 'C19: the underfull right child gives a pair away instead of receiving one')
mut('M21', M, 'handleUnderfull', 'let t ← merge t (i - 1)\n      .ok (t, if t.len = 0 then .popRoot else .walking)', 'let t ← merge t (i - 1)\n      .ok (t, .walking)', 'C19/C21: an emptied root is not popped')
mut('M22', M, 'underflow', '| .walking => if c.len < CAPACITY / 2 then handleUnderfull h t i else .ok (t, .done)', '| .walking => .ok (t, .done)', 'C19: removal never rebalances')
mut('M23', M, 'underflow', 'if c.len < CAPACITY / 2 then handleUnderfull h t i', 'if c.len < CAPACITY / 2 - 1 then handleUnderfull h t i', 'C19 (minimum stays 4 here): rebalancing starts one key later')
mut('M24', M, 'underflow', 'if c.len < CAPACITY / 2 then handleUnderfull h t i', 'if c.len < CAPACITY / 2 - 2 then handleUnderfull h t i', 'C19: rebalancing starts two keys later')
mut('M25', M, 'removeRaw', 'let (t, old) ← replaceKv h t p idx kv\n    .ok (t, old, leaf)', 'let (t, old) ← replaceKv h t p idx kv\n    .ok (t, old, p)', 'C19: after removing from an internal node the wrong node is rebalanced')
mut('M26', M, 'removeRaw', 'let c ← getE n.edges (idx + 1)\n    let q ← firstLeafPath hn c\n    let leaf := p ++ (idx + 1) :: q', 'let c ← getE n.edges idx\n    let q ← firstLeafPath hn c\n    let leaf := p ++ idx :: q', 'C02/C04: an internal pair is replaced by the first pair of the left subtree')
mut('M27', M, 'removeRaw', 'let (t, kv) ← removeLeafKv h t leaf 0\n    let (t, old) ← replaceKv h t p idx kv\n    .ok (t, old, leaf)', 'let (t, kv) ← removeLeafKv h t leaf 0\n    .ok (t, kv, leaf)', 'C02: removing an internal pair removes its successor instead')
mut('M28', M, 'popLevelIf', 'let c ← getE t.edges 0\n      .ok ⟨h, c, shared, length⟩', 'let c ← getE t.edges 0\n      .ok ⟨h + 1, c, shared, length⟩', 'C21: pop_level keeps the old height')
mut('M29', M, 'Map.removeKv', 'popLevelIf w m.shared (m.length - 1) m.height t', 'popLevelIf w m.shared m.length m.height t', 'C02/C06: remove does not decrement the length')
mut('M30', M, 'Map.removeEntry', '| .goDown _ => .ok (none, m)\n\n/-- src/btree/map.rs:783-799 `remove`. -/', '| .goDown _ => .ok (none, { m with length := m.length - 1 })\n\n/-- src/btree/map.rs:783-799 `remove`. -/', 'C02: removing an absent key decrements the length')
mut('M31', M, 'Map.setVal', 'replaceKv m.height m.root hd.up.reverse hd.idx (k, v)', 'replaceKv m.height m.root hd.up.reverse (hd.idx - 1) (k, v)', 'C18: a write through a reference hits the neighbouring slot')
mut('M32', M, 'Map.getKeyValue', '.ok (some kv)\n  | .goDown _ => .ok none\n\n/-- src/btree/map.rs:630', '.ok none\n  | .goDown _ => .ok none\n\n/-- src/btree/map.rs:630', 'C04/C14: get_key_value finds nothing')
mut('M33', M, 'lastLeafPath', '| 0, t => .ok ([], t.len)', '| 0, t => .ok ([], t.len - 1)', 'C05: last_leaf_edge is one short')
mut('M34', M, 'firstLeafPath', 'let c ← getE t.edges 0\n    let p ← firstLeafPath h c\n    .ok (0 :: p)', 'let c ← getE t.edges 1\n    let p ← firstLeafPath h c\n    .ok (1 :: p)', 'C04: first_leaf_edge starts at the second child')
mut('M35', M, 'Map.containsKey', '.ok r.isSome', '.ok r.isNone', 'C03: contains_key is negated')
mut('M36', M, 'Map.entryKey', '| .occupied hd => do\n    let kv ← m.kvAt hd\n    .ok kv.1', '| .occupied hd => do\n    let kv ← m.kvAt ⟨hd.up, 0⟩\n    .ok kv.1', 'C17/C18: the key of an occupied entry is that of the first pair of the node')
mut('M37', M, 'Map.occInsert', 'let (m, old) ← m.setVal hd v\n  .ok (old, m)', 'let (m, _) ← m.setVal hd v\n  .ok (v, m)', 'C18: OccupiedEntry::insert returns the new value')
mut('M38', M, 'Map.isEmpty', 'm.len == 0', 'm.len == 1', 'C06: is_empty is wrong')
mut('M39', M, 'Map.index', '| none => .panic "no entry found for key"', '| none => .ub', 'Index of an absent key')

BU = 'BTree/Bulk.lean'
mut('B01', BU, 'splitLoop', 'let cr ← getE r.edges 0\n', 'let cr ← getE r.edges 1\n', 'C09: split_off continues in the wrong right child')
mut('B02', BU, 'fixTop', 'if 0 < t.len then .ok ⟨h + 1, t⟩', 'if 1 < t.len then .ok ⟨h + 1, t⟩', 'C09: fix_top drops a root with one key')
mut('B03', BU, 'fixRightLoop', 'let i := t.len - 1\n    if ← canMerge t i then do\n      let t ← merge t i\n      let c ← getE t.edges i\n      let c ← fixRightLoop h c', 'let i := 0\n    if ← canMerge t i then do\n      let t ← merge t i\n      let c ← getE t.edges i\n      let c ← fixRightLoop h c', 'C19: fix_right_border repairs the first instead of the last child')
mut('B04', BU, 'fixRightLoop', '(if r.len < MIN_LEN + 1 then bulkStealLeft t i (MIN_LEN + 1 - r.len) else .ok t)', '(if r.len < MIN_LEN then bulkStealLeft t i (MIN_LEN - r.len) else .ok t)', 'C19: fix_right_border leaves one key too few (min 5 in the child, its own repair may take one away)')
mut('B05', BU, 'fixLeftLoop', '(if l.len < MIN_LEN + 1 then bulkStealRight t 0 (MIN_LEN + 1 - l.len) else .ok t)', '(.ok t)', 'C19: fix_left_border never steals')
mut('B06', BU, 'fixLeftLoop', 'bulkStealRight t 0 (MIN_LEN + 1 - l.len)', 'bulkStealRight t 0 (MIN_LEN - l.len)', 'C21: a steal of zero elements underflows count - 1')
mut('B07', BU, 'fixRightBorder', 'let t ← fixRightLoop h t\n  fixTop h t', 'let t ← fixRightLoop h t\n  .ok ⟨h, t⟩', 'C19: the root emptied by fix_right_border is kept')
mut('B08', BU, 'dfsLen', '.ok (acc + n)) t.len', '.ok (acc + n)) 0', 'C09: recalc_length forgets the keys of internal nodes')
mut('B09', BU, 'Map.splitOff', '.ok (.ok ⟨r.1, r.2, false, total - ll⟩, ⟨l.1, l.2, m.shared, ll⟩, a)', '.ok (.ok ⟨r.1, r.2, false, ll⟩, ⟨l.1, l.2, m.shared, total - ll⟩, a)', 'C09: split_off swaps the lengths')
mut('B10', BU, 'Map.splitOff', '.ok (.ok ⟨r.1, r.2, false, rl⟩, ⟨l.1, l.2, m.shared, total - rl⟩, a)', '.ok (.ok ⟨r.1, r.2, false, rl⟩, ⟨l.1, l.2, m.shared, total⟩, a)', 'C09: self keeps its old length after split_off')
mut('B11', BU, 'Map.splitOff', 'else .ok (.error .allocError, m, a)\n\n/-! ### append -/', 'else .ok (.error .allocError, Map.new, a)\n\n/-! ### append -/', 'C10: a failed split_off empties self')
mut('B12', BU, 'Map.splitOff', '.ok (.ok ⟨r.1, r.2, false, total - ll⟩', '.ok (.ok ⟨r.1, r.2, true, total - ll⟩', 'C09: the right half claims to use the shared root')
mut('B13', BU, 'mergeIter', '| .eq => b :: mergeIter l r', '| .eq => a :: mergeIter l r', 'C11: append keeps self\'s pair on equal keys')
mut('B14', BU, 'mergeIter', '| .eq => b :: mergeIter l r', '| .eq => a :: b :: mergeIter l r', 'C11: append keeps both pairs on equal keys')
mut('B15', BU, 'mergeIter', '| .gt => b :: mergeIter (a :: l) r', '| .gt => a :: mergeIter l (b :: r)', 'C11: append does not merge in order')
mut('B16', BU, 'mergeIter', '| l, [] => l', '| _, [] => []', 'C11: append loses the rest of self')
mut('B17', BU, 'pushSorted', '| 0, t, kv, a =>\n    if t.len < CAPACITY then do', '| 0, t, kv, a =>\n    if t.len ≤ CAPACITY then do', 'C11/C21: append overfills a leaf')
mut('B18', BU, 'fromSortedLoop', 'let (granted, a) := Alloc.requests (t.1 + 1) a\n        if granted then do\n          let top : Tree K V := ⟨[], [t.2]⟩\n          let top ← top.pushInternal kv (emptySpine t.1)\n          fromSortedLoop ⟨t.1 + 1, top⟩ rest a\n        else .panic "Out of Mem"', 'let (granted, a) := Alloc.requests (t.1 + 1) a\n        if granted then do\n          let top : Tree K V := ⟨[], [t.2]⟩\n          let top ← top.pushInternal kv (emptySpine t.1)\n          fromSortedLoop ⟨t.1 + 1, top⟩ rest a\n        else .ub', 'C12: running out of memory in append is undefined behaviour instead of a panic')
mut('B19', BU, 'fixRightEdge', 'let t ← (if r.len < MIN_LEN then', 'let t ← (if r.len < MIN_LEN - 2 then', 'C19: append leaves an underfull last child')
mut('B20', BU, 'fixRightEdge', 'if 0 < t.len then bulkStealLeft t (t.len - 1) (MIN_LEN - r.len)', 'if 0 < t.len then bulkStealLeft t (t.len - 1) (MIN_LEN - r.len + 6)', 'C19: append steals too many')
mut('B21', BU, 'Map.ofSorted', 'm.length + l.length', 'm.length', 'C11: append does not set the length')
mut('B22', BU, 'cloneLeafLoop', 'let out ← out.pushLeaf (k, v)\n        cloneLeafLoop ck cv rest out a', 'let out ← out.pushLeaf (k, v)\n        match rest with\n        | [] => .ok (.ok out, a)\n        | _ :: rest => cloneLeafLoop ck cv rest out a', 'C13: try_clone skips every other pair')
mut('B23', BU, 'cloneInternalLoop', 'cloneInternalLoop ck cv rec kvs es out (len + (1 + sublen)) a', 'cloneInternalLoop ck cv rec kvs es out (len + sublen) a', 'C13: the clone\'s length forgets the internal keys')
mut('B24', BU, 'cloneInternalLoop', 'let out ← out.pushInternal (k, v) sub', 'let out ← out.pushInternal (k, v) e', 'C13: try_clone shares a subtree with the original instead of cloning it')
mut('B25', BU, 'Map.tryClone', 'if m.len = 0 then .ok (.ok Map.new, a)', 'if m.len ≤ 1 then .ok (.ok Map.new, a)', 'C13: the clone of a one-element map is empty')
mut('B26', BU, 'cloneSubtree', '| .error e => .ok (.error e, a)\n      | .ok out => .ok (.ok (out, out.len), a)', '| .error _ => .ok (.ok (emptyLeaf, 0), a)\n      | .ok out => .ok (.ok (out, out.len), a)', 'C13: a failed element clone is swallowed')
mut('B27', BU, 'Map.clone', '| .error _ => .panic "Out of Mem"\n\nend Verif.BTree', '| .error _ => .ok (Map.new, a)\n\nend Verif.BTree', 'C13/C30: Clone::clone answers OOM with an empty map')

I = 'BTree/Iter.lean'
mut('I01', I, 'nextLoop', 'if i < n.len then do\n        let c ← getE n.edges (i + 1)', 'if i ≤ n.len then do\n        let c ← getE n.edges (i + 1)', 'C21: iteration does not ascend past the last pair of a node')
mut('I02', I, 'nextLoop', '⟨p.reverse ++ (i + 1) :: up, 0⟩)', '⟨p.reverse ++ i :: up, 0⟩)', 'C04: the front cursor goes back to the subtree it came from')
mut('I03', I, 'nextUnchecked', 'if front.idx < n.2.len then .ok (front, ⟨front.up, front.idx + 1⟩)', 'if front.idx < n.2.len then .ok (front, ⟨front.up, front.idx + 2⟩)', 'C04: iteration skips pairs')
mut('I04', I, 'nextBackLoop', 'if 0 < i then do\n        let c ← getE n.edges (i - 1)', 'if 0 < i then do\n        let c ← getE n.edges i', 'C05: next_back descends into the wrong child')
mut('I05', I, 'nextBackUnchecked', '.ok (⟨back.up, back.idx - 1⟩, ⟨back.up, back.idx - 1⟩)', '.ok (⟨back.up, back.idx - 1⟩, back)', 'C05/C24: next_back does not move and hands out the same reference again')
mut('I06', I, 'Range.nextH', 'if r.front = r.back then .ok (none, r)\n  else do\n    let (kv, front) ← nextUnchecked', 'if r.front.idx = r.back.idx then .ok (none, r)\n  else do\n    let (kv, front) ← nextUnchecked', 'C07: a range ends when the indices (not the edges) agree')
mut('I07', I, 'Range.nextBackH', '.ok (some kv, { r with back := back })', '.ok (some kv, { r with front := back })', 'C07: next_back moves the front')
mut('I08', I, 'rangeCheck', '| .eq => .panic "range start and end are equal and excluded in BTreeMap"', '| .eq => .ok ()', 'C08: an empty excluded range is not rejected')
mut('I09', I, 'rangeCheck', '| .included s, .included e | .included s, .excluded e | .excluded s, .included e =>\n    match compare s e with\n    | .gt =>', '| .included s, .included e | .included s, .excluded e | .excluded s, .included e =>\n    match compare e s with\n    | .gt =>', 'C08: the range check is reversed')
mut('I10', I, 'minEdge', '| (i, true) => (i + 1, true)\n    | (i, false) => (i, false)\n  | f, .unbounded => (0, f)', '| (i, true) => (i, true)\n    | (i, false) => (i, false)\n  | f, .unbounded => (0, f)', 'C07: an excluded start is included')
mut('I11', I, 'minEdge', '| true, .included _ => (kvs.length, true)\n  | true, .excluded _ => (0, true)', '| true, .included _ => (0, true)\n  | true, .excluded _ => (kvs.length, true)', 'C07: below a found start key the wrong side is taken')
mut('I12', I, 'maxEdge', '| true, .included _ => (0, true)\n  | true, .excluded _ => (kvs.length, true)', '| true, .included _ => (kvs.length, true)\n  | true, .excluded _ => (0, true)', 'C07: below a found end key the wrong side is taken')
mut('I13', I, 'maxEdge', '| false, .excluded q => searchLinear bor q kvs\n  | f, .unbounded => (kvs.length, f)', '| false, .excluded q => searchLinear bor q kvs\n  | f, .unbounded => (kvs.length - 1, f)', 'C07: an unbounded end misses the last child')
mut('I14', I, 'rangeLoop', 'let dv := dv || lo != hi', 'let dv := false', 'C08: after the paths diverged the ill-defined-Ord check still fires')
mut('I15', I, 'Map.iter', '.ok ⟨⟨f, b⟩, m.length⟩', '.ok ⟨⟨f, b⟩, m.length + 1⟩', 'C21: iter() announces one item too many')
mut('I16', I, 'Iter.nextH', '.ok (some kv, ⟨{ it.range with front := front }, it.length - 1⟩)', '.ok (some kv, ⟨{ it.range with front := front }, it.length⟩)', 'C04/C21: next does not decrease the remaining length')
mut('I17', I, 'Iter.nextBackH', '.ok (some kv, ⟨{ it.range with back := back }, it.length - 1⟩)', '.ok (some kv, ⟨{ it.range with back := back }, it.length⟩)', 'C05: next_back does not decrease the remaining length')
mut('I18', I, 'Map.append', 'if other.len = 0 then .ok (m, other, a)\n  else if m.len = 0 then .ok (other, m, a)', 'if other.len = 0 then .ok (m, other, a)\n  else if m.len = 0 then .ok (other, other, a)', 'C11: appending to an empty map duplicates instead of moving')
mut('I19', I, 'Map.append', 'Map.ofSorted (mergeIter l r) a', 'Map.ofSorted (mergeIter r l) a', 'C11: append is left biased')
mut('I20', I, 'Map.append', '.ok (m, Map.new, a)', '.ok (m, other, a)', 'C11: append leaves other full')
mut('I21', I, 'Map.extend', '| .error _ => .panic "Out of Mem"\n    | .ok _ => m.extend rest a', '| .error _ => .ok (m, a)\n    | .ok _ => m.extend rest a', 'C25: extend stops silently on OOM')
mut('I22', I, 'Map.eq', 'if m.len = o.len then do', 'if m.len ≤ o.len then do', 'C23: a map equals a longer one with the same beginning')
mut('I23', I, 'zipAll', 'eq a b && zipAll eq as bs', 'eq a b || zipAll eq as bs', 'C23: maps are equal if any pair agrees')
mut('I24', I, 'lexCmp', '| [], _ :: _ => .lt\n  | _ :: _, [] => .gt', '| [], _ :: _ => .gt\n  | _ :: _, [] => .lt', 'C23: a prefix compares greater')
mut('I25', I, 'Map.cmp', '(cmpK a.1 b.1).then (cmpV a.2 b.2)', '(cmpV a.2 b.2).then (cmpK a.1 b.1)', 'C23: values are compared before keys')
mut('I26', I, 'Map.hash', '.ok (l.foldl feed s)', '.ok (l.tail.foldl feed s)', 'C23: hash ignores the first entry')
mut('I27', I, 'mutRun', 'let (m, _) ← m.setVal hd (f kv.2)\n      let (xs, m, refs) ← mutRun step as m it refs', 'let (xs, m, refs) ← mutRun step as m it refs', 'C24: writes through iter_mut are lost')
mut('I28', I, 'Iter.stepMap', '.ok (x.map f, it)', '.ok ((x.map f), { it with length := it.length - 1 })', 'C04: keys()/values() count items twice')

S = 'BTree/Set.lean'
mut('S01', S, 'BSet.tryInsert', '.ok (.ok old.isNone, ⟨r.2.1⟩, r.2.2)', '.ok (.ok old.isSome, ⟨r.2.1⟩, r.2.2)', 'C29: try_insert answers the opposite')
mut('S02', S, 'Map.replaceKey', '.ok (.ok (some p.2.1), { m with root := p.1 }, r.2.2)', '.ok (.ok (some x), { m with root := p.1 }, r.2.2)', 'C14/C29: replace returns the new object')
mut('S03', S, 'Map.replaceKey', 'let p ← replaceKv m.height m.root hd.up.reverse hd.idx (x, ())\n      .ok (.ok (some p.2.1), { m with root := p.1 }, r.2.2)', 'let p ← m.kvAt hd\n      .ok (.ok (some p.1), m, r.2.2)', 'C14: replace keeps the stored object')
mut('S04', S, 'BSet.take', '.ok (some r.1.1, ⟨r.2⟩)', '.ok (some r.1.1, s)', 'C29: take does not remove')
mut('S05', S, 'BSet.remove', '.ok (r.1.isSome, ⟨r.2⟩)', '.ok (true, ⟨r.2⟩)', 'C29: remove always answers true')
mut('S06', S, 'BSet.difference', 'Exec (Difference T) := do\n  if o.len / TIPPING < s.len then do', 'Exec (Difference T) := do\n  if s.len / TIPPING < o.len then do', 'only the strategy changes: no claim about contents (C26 must survive)')
mut('S07', S, 'differenceStitch', '| .lt => .ok (some x, .stitch i p.2)\n    | .eq => do\n      let n ← i.next\n      match n.1 with\n      | none => .ok (none, .stitch n.2 p.2)\n      | some x\' => do\n        let j\' ← p.2.next\n        differenceStitch fuel x\' n.2 j\'.2\n    | .gt => do', '| .gt => .ok (some x, .stitch i p.2)\n    | .eq => do\n      let n ← i.next\n      match n.1 with\n      | none => .ok (none, .stitch n.2 p.2)\n      | some x\' => do\n        let j\' ← p.2.next\n        differenceStitch fuel x\' n.2 j\'.2\n    | .lt => do', 'C26: difference advances the wrong side')
mut('S08', S, 'differenceStitch', 'p.1.elim .lt (fun y => compare x y)', 'p.1.elim .eq (fun y => compare x y)', 'C26: difference drops everything after the other set is exhausted')
mut('S09', S, 'differenceSearch', 'if c then differenceSearch o fuel n.2 else .ok (some x, .search n.2 o)', 'if c then .ok (some x, .search n.2 o) else differenceSearch o fuel n.2', 'C26: searching difference yields the intersection')
mut('S10', S, 'Difference.sizeHint', '| .stitch i j => (i.len - j.len, some i.len)', '| .stitch i j => (i.len, some i.len)', 'C28: the lower bound of difference ignores the other set')
mut('S11', S, 'Difference.sizeHint', '| .search i o => (i.len - o.len, some i.len)', '| .search i o => (i.len - o.len, some (i.len - 1))', 'C28: the upper bound of difference is too small')
mut('S12', S, 'cmpOpt', '| none, _ => short\n  | some _, none => long', '| none, _ => long\n  | some _, none => short', 'C26: cmp_opt swaps short and long')
mut('S13', S, 'symDiffLoop', 'let n ← p.2.next\n      let n\' ← q.2.next\n      symDiffLoop fuel ⟨n.2, n\'.2⟩', 'let n ← p.2.next\n      symDiffLoop fuel ⟨n.2, q.2⟩', 'C26: symmetric difference keeps common elements of the second set')
mut('S14', S, 'TwoIters.symDiffHint', '(0, some (t.a.len + t.b.len))', '(0, some (max t.a.len t.b.len))', 'C28: the upper bound of symmetric difference is too small')
mut('S15', S, 'TwoIters.unionNext', '| .eq => do\n    let n\' ← q.2.next\n    let n ← p.2.next\n    .ok (n.1, ⟨n.2, n\'.2⟩)', '| .eq => do\n    let n ← p.2.next\n    .ok (n.1, ⟨n.2, q.2⟩)', 'C26: union yields common elements twice')
mut('S16', S, 'TwoIters.unionNext', '| .eq => do\n    let n\' ← q.2.next\n    let n ← p.2.next\n    .ok (n.1, ⟨n.2, n\'.2⟩)', '| .eq => do\n    let n\' ← q.2.next\n    let n ← p.2.next\n    .ok (n\'.1, ⟨n.2, n\'.2⟩)', 'C26: union yields the other set\'s object on ties')
mut('S17', S, 'TwoIters.unionHint', '(max t.a.len t.b.len, some (t.a.len + t.b.len))', '(t.a.len + t.b.len, some (t.a.len + t.b.len))', 'C28: the lower bound of union counts common elements twice')
mut('S18', S, 'BSet.intersection', 'if s.len ≤ o.len then (s, o) else (o, s)', 'if s.len ≤ o.len then (o, s) else (s, o)', 'C26: intersection yields the objects of the larger set')
mut('S19', S, 'intersectionStitch', '| .lt => do\n      let n ← i.next\n      match n.1 with\n      | none => .ok (none, .stitch n.2 j)\n      | some x\' => intersectionStitch fuel x\' y n.2 j\n    | .gt => do', '| .gt => do\n      let n ← i.next\n      match n.1 with\n      | none => .ok (none, .stitch n.2 j)\n      | some x\' => intersectionStitch fuel x\' y n.2 j\n    | .lt => do', 'C26: intersection advances the wrong side')
mut('S20', S, 'intersectionSearch', 'if c then .ok (some x, .search n.2 o) else intersectionSearch o fuel n.2', 'if c then .ok (some x, .search n.2 o) else .ok (none, .search n.2 o)', 'C26: searching intersection stops at the first miss')
mut('S21', S, 'Intersection.sizeHint', '| .stitch i _ => (0, some i.len)', '| .stitch i j => (0, some (i.len - j.len))', 'C28: the upper bound of intersection is too small')
mut('S22', S, 'BSet.isDisjoint', '.ok r.1.isNone', '.ok r.1.isSome', 'C27: is_disjoint is negated')
mut('S23', S, 'subsetStitch', '| none => .ok true\n    | some a1 =>\n      match b with\n      | none => .ok false', '| none => .ok true\n    | some a1 =>\n      match b with\n      | none => .ok true', 'C27: is_subset accepts leftovers')
mut('S24', S, 'subsetStitch', '| .gt => .ok false\n        | .eq => do', '| .gt => do\n          let n ← x.next\n          subsetStitch fuel n.1 b n.2 y\n        | .eq => do', 'C27: is_subset skips missing elements')
mut('S25', S, 'BSet.isSubset', 'if o.len < s.len then .ok false', 'if o.len ≤ s.len then .ok false', 'C27: a set is not a subset of itself')
mut('S26', S, 'BSet.isSuperset', 'o.isSubset s', 's.isSubset o', 'C27: is_superset is is_subset')
mut('S27', S, 'BSet.bitxor', 'collectSet TwoIters.symDiffNext fk', 'collectSet TwoIters.unionNext fk', 'C30: ^ computes the union')
mut('S28', S, 'BSet.bitand', 'let d ← s.intersection o\n  collectSet Intersection.next fk (s.len + 1)', 'let d ← s.intersection s\n  collectSet Intersection.next fk (s.len + 1)', 'C30: & intersects with itself')
mut('S29', S, 'collectSet', '| .error _ => .panic "Out of Mem"\n      | .ok _ => collectSet', '| .error _ => .ok (p.2.1, p.2.2)\n      | .ok _ => collectSet', 'C30: the operators swallow OOM')
mut('S30', S, 'Peekable.next', '| some v => .ok (v, { p with peeked := none })', '| some v => .ok (v, p)', 'C26: peeked items are not consumed')
mut('S31', S, 'Peekable.len', '| some (some _) => p.iter.len + 1', '| some (some _) => p.iter.len', 'C28: a peeked item is not counted')
mut('S32', S, 'BSet.trySplitOff', '| .ok right => .ok (.ok ⟨right⟩, ⟨r.2.1⟩, r.2.2)', '| .ok right => .ok (.ok ⟨r.2.1⟩, ⟨right⟩, r.2.2)', 'C29: split_off returns the lower half')
mut('S33', S, 'BSet.get', '.ok (some kv.1)\n  | .goDown _ => .ok none\n\n/-- src/btree/set.rs:646', '.ok none\n  | .goDown _ => .ok none\n\n/-- src/btree/set.rs:646', 'C29: get finds nothing')

V = 'Vec/Fallible.lean'
mut('V01', V, 'needsToGrow', 'v.cap < v.len + n', 'v.cap < n', 'C33: room is computed without the current length')
mut('V02', V, 'needsToGrow', 'if e.usizeMax < v.len + n then true else', 'if e.usizeMax < v.len + n then false else', 'C33/C38: an overflowing length is taken to fit')
mut('V03', V, 'tryPush', 'let r ← (if s.v.len = s.v.cap then stdTryReserve e 1 else pure (.ok ()))\n  match r with\n  | .error er => do\n    dropVal e x', 'let r ← (if s.v.len + 1 = s.v.cap then stdTryReserve e 1 else pure (.ok ()))\n  match r with\n  | .error er => do\n    dropVal e x', 'C33: try_push reserves at the wrong moment, so push allocates infallibly')
mut('V04', V, 'tryPushGiveBack', '| .error er => pure (.error (x, er))\n  | .ok () => do\n    stdPush e x', '| .error er => do\n    dropVal e x\n    pure (.error (x, er))\n  | .ok () => do\n    stdPush e x', 'C39 (nothing dropped twice): try_push_give_back drops the element it gives back')
mut('V05', V, 'tryAppend', 'match ← tryReserve e other.len with', 'match ← tryReserve e 0 with', 'C33: try_append does not reserve')
mut('V06', V, 'tryResize', 'let r ← (if s.v.len < newLen then tryReserve e (newLen - s.v.len) else pure (.ok ()))\n  match r with\n  | .error er => pure (.error er)\n  | .ok () => do\n    stdResize e newLen x', 'let r ← (if s.v.len < newLen then tryReserve e (newLen - s.v.len - 1) else pure (.ok ()))\n  match r with\n  | .error er => pure (.error er)\n  | .ok () => do\n    stdResize e newLen x', 'C33: try_resize reserves one too few')
mut('V07', V, 'tryResizeWith', 'stdResizeWith e newLen f\n', 'stdResizeWith e (newLen + 1) f\n', 'C36: try_resize_with grows too far')
mut('V08', V, 'extendWithLoop', 'writeSlot localLen c\n      setLen (localLen + 1)\n      extendWithLoop cl val n (localLen + 1)', 'writeSlot localLen c\n      setLen (localLen + 1)\n      extendWithLoop cl val n localLen', 'C37/C39: the loop writes the same slot again (leaking clones)')
mut('V09', V, 'extendWithLoop', 'writeSlot localLen c\n      setLen (localLen + 1)\n      extendWithLoop cl val n', 'setLen (localLen + 1)\n      writeSlot localLen c\n      extendWithLoop cl val n', 'C39: the length is raised before the slot is written')
mut('V10', V, 'tryExtendWith', 'extendWithLoop cl val (n - 1) s.v.len', 'extendWithLoop cl val n s.v.len', 'C37/C39: one clone too many, the last write is past the reservation')
mut('V11', V, 'tryExtendWith', 'if needsToGrow e s.v n then stdTryReserve e n else', 'if needsToGrow e s.v n then stdTryReserve e (n - 1) else', 'C39: the reservation is one short')
mut('V12', V, 'tryExtendWith', '| (.ok (.error er), s) =>\n    match dropVal e val s with\n    | (.ok (), s) => (.ok (.error er), s)', '| (.ok (.error er), s) =>\n    match (Exec.ok (), s) with\n    | (.ok (), s) => (.ok (.error er), s)', 'C39: the value leaks when a clone fails')
mut('V13', V, 'truncateLoop', 'dropSlot e (localLen - 1)\n    setLen (localLen - 1)', 'dropSlot e localLen\n    setLen (localLen - 1)', 'C39: truncate drops one slot too high')
mut('V14', V, 'truncate', 'truncateLoop e (s.v.len - len) s.v.len', 'truncateLoop e (s.v.len - len - 1) s.v.len', 'C37: truncate keeps one element too many')
mut('V15', V, 'truncateLoop', 'dropSlot e (localLen - 1)\n    setLen (localLen - 1)\n', 'setLen (localLen - 1)\n', 'C37/C39: truncate leaks')
mut('V16', V, 'extendSliceLoop', 'writeSlot len c\n      setLen (len + 1)\n      extendSliceLoop cl xs (len + 1)', 'writeSlot len c\n      extendSliceLoop cl xs (len + 1)', 'C38/C39: the length is not updated, the clones leak')
mut('V17', V, 'tryExtendFromSliceNoCopy', 'let s ← VM.get\n    extendSliceLoop cl other s.v.len', 'extendSliceLoop cl other 0', 'C38/C39: existing elements are overwritten')
mut('V18', V, 'tryFromElemU8', 'writeBytes x n\n      setLen n', 'setLen n\n      writeBytes x n', 'C39: set_len before the bytes are written')
mut('V19', V, 'tryFromElemU8', 'match tryWithCapacity e n w with\n  | (.ok (.ok v), w) =>\n    building e v (do\n      writeBytes x n', 'match tryWithCapacity e (n - 1) w with\n  | (.ok (.ok v), w) =>\n    building e v (do\n      writeBytes x n', 'C39/C42: capacity one short')
mut('V20', V, 'pushLoop', '| .error er => pure (.error er, xs)', '| .error er => pure (.error er, xs.tail)', 'C41: an item too many is pulled from the iterator')
mut('V21', V, 'concatLoop', '| .ok () => concatLoop e cl vs', '| .ok () => match vs with\n      | [] => pure (.ok ())\n      | _ :: vs => concatLoop e cl vs', 'C40: concat skips vectors')
mut('V22', V, 'Vec.concat', 'match tryWithCapacity e size w with\n    | (.ok (.ok v), w) => building e v (concatLoop e cl vs) w', 'match tryWithCapacity e size w with\n    | (.ok (.ok _), w) => building e (RawVec.new e) (concatLoop e cl vs) w', 'C40: concat allocates again (the first allocation is thrown away)')
mut('V23', V, 'tryInsert', 'let r ← (if s.v.len = s.v.cap then stdTryReserve e 1 else pure (.ok ()))\n  match r with\n  | .error er => pure (.error (x, er))\n  | .ok () => do\n    stdInsert e index x', 'let r : Except TryReserveError Unit := .ok ()\n  match r with\n  | .error er => pure (.error (x, er))\n  | .ok () => do\n    stdInsert e index x', 'C33: try_insert does not reserve')
mut('V24', V, 'tryResizeNoCopy', 'if s.v.len < newLen then tryExtendWith e cl (newLen - s.v.len) val', 'if s.v.len < newLen then tryExtendWith e cl newLen val', 'C37: grows by new_len instead of to new_len')
mut('V25', V, 'building', '| (.ok (.error er), s) =>\n    match dropVec e s with\n    | (.ok (), s) => (.ok (.error er), s.w)\n    | (.ub, s) => (.ub, s.w)\n    | (.panic m, s) => (.panic m, s.w)\n  | (.panic m, s) =>\n    match dropVec e s with\n    | (.ub, s) => (.ub, s.w)\n    | (_, s) => (.panic m, s.w)\n  | (.ub, s) => (.ub, s.w)\n\n/-- src/vec.rs:658', '| (.ok (.error er), s) => (.ok (.error er), s.w)\n  | (.panic m, s) =>\n    match dropVec e s with\n    | (.ub, s) => (.ub, s.w)\n    | (_, s) => (.panic m, s.w)\n  | (.ub, s) => (.ub, s.w)\n\n/-- src/vec.rs:658', 'C40: the partial vector leaks on Err')

IO = 'Misc/Io.lean'
mut('X01', IO, 'tryReadUpTo', 'match ← RM.vec (tryReserve e limit) with', 'match ← RM.vec (tryReserve e 0) with', 'C43: no reservation, so read_to_end allocates infallibly')
mut('X02', IO, 'tryReadUpTo', 'limits := limit :: s.take.limits', 'limits := (limit + 1) :: s.take.limits', 'C43: one byte more than the limit is read')
mut('X03', IO, 'tryReadUpTo', 'if e.usizeMax < limit then pure (.error .limitTooLarge)', 'if e.usizeMax < limit then pure (.ok 0)', 'C43: a limit beyond usize is silently ignored')
mut('X04', IO, 'write', 'pure (.ok bs.length)\n\n/-- src/vec.rs:223', 'pure (.ok 0)\n\n/-- src/vec.rs:223', 'C44: write reports 0 bytes')
mut('X05', IO, 'write', '| .error _ => pure (.error .extendFailed)', '| .error _ => pure (.ok 0)', 'C44: write hides the failure')
mut('X06', IO, 'tryReadToEnd', '| limit :: _ => tryReadUpTo e chunk limit s', '| limit :: _ => tryReadUpTo e chunk (limit / 2) s', 'C43: read_to_end uses the wrong limit')
F = 'Misc/Format.lean'
mut('X07', F, 'tryFormat', 'match tryWithCapacity e maxCapacity w with', 'match tryWithCapacity e 0 w with', 'C45: the capacity is not reserved')
mut('X08', F, 'tryFormat', 'if ok then pure (.ok ()) else VM.panic "a formatting trait implementation returned an error"', 'pure (.ok ())', 'C45: a formatting error is ignored and truncated text returned')
BX = 'Misc/Boxed.lean'
mut('X09', BX, 'boxTryNew', 'match ← stdTryReserveExact e 1 with', 'match ← stdTryReserve e 4 with', 'C46: the reservation is not exact, into_boxed_slice reallocates infallibly')
mut('X10', BX, 'boxTryNew', '| .error er => do\n      dropVal e t\n      pure (.error er)', '| .error er => pure (.error er)', 'C46: the value leaks on Err')
mut('X11', BX, 'boxTryClone', 'boxTryNew e c {', 'boxTryNew e b.content {', 'C46/C50: the box clone holds the original instead of the clone')
mut('X12', BX, 'rcTryNew', '| (.ok (.error er), w) => (.ok (.error er), w)\n  | (.ub, w) => (.ub, w)\n  | (.panic m, w) => (.panic m, w)\n\n/-- src/arc.rs:38', '| (.ok (.error _), w) => (.panic "oom", w)\n  | (.ub, w) => (.ub, w)\n  | (.panic m, w) => (.panic m, w)\n\n/-- src/arc.rs:38', 'C47: the first refusal panics')
mut('X13', BX, 'arcTryClone', '{ c with count := c.count + 1 }', 'c', 'C47: cloning an Arc does not count')
H = 'Misc/HashMap.lean'
mut('X14', H, 'tryHashInsert', '(if s.m.capacity = 0 then 4 else 1)', '0', 'C48: insert does not reserve')
mut('X15', H, 'tryHashInsert', '(if s.m.capacity = 0 then 4 else 1)', '(if s.m.capacity = 0 then 4 else 0)', 'C48: insert reserves only into an empty map')
mut('X16', H, 'tryHashReserve', '| .ok () => pure (.ok ())\n  | .error _ => fun s =>\n    match makeTryReserveError e s.w.alloc with\n    | (.ok er, a) => (.ok (.error er), ', '| .ok () => pure (.ok ())\n  | .error _ => fun s =>\n    match makeTryReserveError e s.w.alloc with\n    | (.ok _, a) => (.ok (.ok ()), ', 'C48: reserve hides the failure')
mut('X17', H, 'cloneLoop', 'match tryHashInsert e k\' v\' s with', 'match tryHashInsert e k v\' s with', 'C49/C50: the clone holds the original keys')
mut('X18', H, 'tryHashClone', 'match tryHashWithCapacity e m.items.length w with', 'match tryHashWithCapacity e 0 w with', 'C49: no initial reservation')
mut('X19', H, 'tryHashGet', '(m.items.find? (fun x => bor x.1 == q)).map (·.2)', '(m.items.head?).map (·.2)', 'C48: get returns the first value')
mut('X20', H, 'makeTryReserveError', 'stdTryReserve e.errVec e.errVec.usizeMax', 'stdTryReserve e.errVec 0', 'C48: making the error value panics (unwrap_err on Ok)')
T = 'Misc/TryClone.lean'
mut('X21', T, 'optClone', '| .ok (.ok t\', a) => .ok (.ok (some t\'), a)', '| .ok (.ok _, a) => .ok (.ok none, a)', 'C50: the clone of Some is None')
mut('X22', T, 'optClone', '| .ok (.error e, a) => .ok (.error e, a)\n    | .ub => .ub\n    | .panic m => .panic m\n\n/-- `Box`', '| .ok (.error _, a) => .ok (.ok none, a)\n    | .ub => .ub\n    | .panic m => .panic m\n\n/-- `Box`', 'C50: a failed clone becomes None')

# level 2: nodes in memory
HN = 'Heap/Node.lean'
mut('H01', HN, 'correctParentLink', '{ m with parent := some a, pidx := some i }', '{ m with parent := some a, pidx := some (i + 1) }', 'C52: correct_parent_link records the wrong index')
mut('H02', HN, 'correctParentLink', '{ m with parent := some a, pidx := some i }', '{ m with pidx := some i }', 'C52: correct_parent_link forgets the parent pointer')
mut('H03', HN, 'insertFitInternal', 'correctLinks h.node (h.idx + 1) ((len + 1 + 1) - (h.idx + 1))', 'correctLinks h.node (h.idx + 1) ((len + 1) - (h.idx + 1))', 'C52: insert_fit does not correct the link of the last child')
mut('H04', HN, 'insertFitInternal', 'correctLinks h.node (h.idx + 1) ((len + 1 + 1) - (h.idx + 1))', 'correctLinks h.node (h.idx + 2) (len - h.idx)', 'C52: insert_fit does not link the new child')
mut('H05', HN, 'insertFitInternal', 'n.insertEdge n.len (h.idx + 1) e.node', 'n.insertEdge (n.len - 1) (h.idx + 1) e.node', 'C53: insert_fit shifts one edge too few and overwrites one')
mut('H06', HN, 'splitInternal', 'correctLinks new 0 (newLen + 1)\n', 'correctLinks new 0 newLen\n', 'C52: split leaves the last moved child pointing to the old node')
mut('H07', HN, 'splitInternal', 'moveEdgesRaw h.node new (h.idx + 1) 0 (newLen + 1)', 'moveEdgesRaw h.node new (h.idx + 1) 0 newLen', 'C53: split leaves the last edge behind')
mut('H08', HN, 'splitLeaf', 'moveKv h.node new (h.idx + 1) 0 newLen\n    atNode h.node (fun n => .ok ((), n.setLen h.idx))\n    atNode new (fun n => .ok ((), n.setLen newLen))\n    pure (some (kv, ⟨0, new⟩))', 'moveKv h.node new (h.idx + 1) 0 newLen\n    atNode h.node (fun n => .ok ((), n.setLen (h.idx + 1)))\n    atNode new (fun n => .ok ((), n.setLen newLen))\n    pure (some (kv, ⟨0, new⟩))', 'C53: the left half of a split keeps the moved-out pair below its length')
mut('H09', HN, 'insertLeaf', 'insertFitLeaf e kv\n        pure (.split h.ref kv\' right e)\n      else do\n        let e ← newEdge right (h.idx - (B + 1))\n        insertFitLeaf e kv', 'insertFitLeaf e kv\n        pure (.split h.ref kv\' right e)\n      else do\n        let e ← newEdge right (h.idx - B)\n        insertFitLeaf e kv', 'C53/C03: the insertion into the right half is off by one')
mut('H10', HN, 'merge', 'moveEdgesRaw r.node l.node 0 (ll + 1) (rl + 1)\n    correctLinks l.node (ll + 1) (rl + 1)', 'moveEdgesRaw r.node l.node 0 (ll + 1) (rl + 1)', 'C52: merge does not relink the moved grandchildren')
mut('H11', HN, 'merge', 'correctLinks h.node (h.idx + 1) (len - (h.idx + 1))\n', 'pure ()\n', 'C52: merge does not renumber the later children')
mut('H12', HN, 'merge', 'freeNode r.node .internal\n', 'pure ()\n', 'C51: merge leaks the emptied internal node')
mut('H13', HN, 'merge', '  else\n    freeNode r.node .leaf\n', '  else\n    pure ()\n', 'C51: merge leaks the emptied leaf')
mut('H14', HN, 'merge', 'freeNode r.node .internal\n', 'freeNode r.node .leaf\n', 'C53: merge frees an internal node with the layout of a leaf')
mut('H15', HN, 'merge', 'atNode l.node (fun n => .ok ((), n.setLen (ll + (rl + 1))))', 'atNode l.node (fun n => .ok ((), n.setLen (ll + rl)))', 'C53/C03: merge counts one pair too few')
mut('H16', HN, 'pop', 'setParentNull e\n      pure (some ⟨r.height - 1, e⟩))\n  atNode r.node (fun n => .ok ((), n.setLen (len - 1)))\n  pure (kv, e)\n\n/-- `NodeRef::pop_front`', 'pure (some ⟨r.height - 1, e⟩))\n  atNode r.node (fun n => .ok ((), n.setLen (len - 1)))\n  pure (kv, e)\n\n/-- `NodeRef::pop_front`', 'harmless: pop does not null the parent (the edge is relinked by push_front)')
mut('H17', HN, 'popFront', 'correctLinks r.node 0 len\n', 'pure ()\n', 'C52: pop_front does not renumber the children')
mut('H18', HN, 'pushFrontInternal', 'correctLinks r.node 0 (len + 2)', 'correctLinks r.node 0 (len + 1)', 'C52: push_front does not renumber the last child')
mut('H19', HN, 'pushInternal', '  correctParentLink r.node (idx + 1)\n', '', 'C52: push does not link the new child')
mut('H20', HN, 'bulkStealLeft', 'correctLinks r.node count (rl + 1)\n', 'pure ()\n', 'C52: bulk_steal_left does not renumber the shifted children')
mut('H21', HN, 'bulkStealLeft', 'moveKv l.node r.node (newLeft + 1) 0 (count - 1)', 'moveKv l.node r.node newLeft 0 (count - 1)', 'C53/C03: bulk_steal_left moves the wrong pairs')
mut('H22', HN, 'bulkStealRight', 'let n ← n.shiftKv count 0 newRight', 'let n ← n.shiftKv count 0 (newRight - 1)', 'C53: bulk_steal_right leaves the last pair behind')
mut('H23', HN, 'bulkStealRight', 'correctLinks r.node 0 (newRight + 1)\n', '', 'C52: bulk_steal_right does not renumber the remaining children')
mut('H24', HN, 'moveSuffix', 'moveEdges h.node right.node (h.idx + 1) 1 rightNew', 'moveEdgesRaw h.node right.node (h.idx + 1) 1 rightNew', 'C52: move_suffix does not relink the moved children')
mut('H25', HN, 'pushLevel', '    correctParentLink a 0\n', '', 'C52: push_level does not link the old root')
mut('H26', HN, 'popLevel', '  setParentNull c.node\n', '', 'C52: pop_level leaves the new root with a parent pointer to freed memory')
mut('H27', HN, 'popLevel', '  freeNode root.node .internal\n', '', 'C51: pop_level leaks the old root')
mut('H28', HN, 'deallocateAndAscend', 'let p ← ascend r\n  freeNode r.node (if r.height = 0 then .leaf else .internal)\n  pure p', 'freeNode r.node (if r.height = 0 then .leaf else .internal)\n  let p ← ascend r\n  pure p', 'C53: deallocate_and_ascend reads the parent after freeing')
mut('H29', HN, 'deallocateAndAscend', '(if r.height = 0 then .leaf else .internal)', '.leaf', 'C53/C51: internal nodes are freed with the layout of a leaf')
mut('H30', HN, 'ascend', 'some ⟨r.height + 1, p, i⟩', 'some ⟨r.height, p, i⟩', 'C52: ascend does not count the height')
mut('H31', HN, 'stealRight', 'let (kv, e) ← popFront r', 'let (kv, e) ← pop r', 'C03: steal_right takes the last pair')
mut('H32', HN, 'insertInternal', 'if len < CAPACITY then do\n    insertFitInternal', 'if len ≤ CAPACITY then do\n    insertFitInternal', 'C53: a full internal node is written past its end')
HM_ = 'Heap/Map.lean'
mut('H40', HM_, 'insertStep', '| .oom => pure (.inr (root, false))\n    | .split', '| .oom => pure (.inr (root, true))\n    | .split', 'C03/C16: a failed split of an inner node is reported as success')
mut('H41', HM_, 'HMap.vacantInsert', 'pure (if ok then some pos else none, ⟨root, length⟩)', 'pure (if ok then some pos else none, ⟨m.root, length⟩)', 'C03/C51: the map keeps its old root after push_level')
mut('H42', HM_, 'HMap.vacantInsert', '| .fit pos => pure (some pos, { m with length := length })', '| .fit pos => pure (some pos, m)', 'C03/C51: insertion does not count the new entry')
mut('H43', HM_, 'HMap.ensureRootIsOwned', 'if m.root.node = SHARED then do', 'if m.length = 0 then do', 'C51: an emptied map gets a second root, the first one leaks')
mut('H44', HM_, 'handleUnderfull', 'let h ← newKv p.ref (p.idx - 1)\n      let c ← canMerge h\n      if c then do\n        let e ← merge h\n        pure (.merged e.ref)\n      else do\n        stealLeft h', 'let h ← newKv p.ref (p.idx - 1)\n      let c ← canMerge h\n      if c then do\n        let e ← merge h\n        pure (.merged e.ref)\n      else do\n        stealRight h', 'C53/C03: the underfull right child gives pairs away until it is empty')
mut('H45', HM_, 'underflowStep', 'if plen = 0 then do\n        let root ← popLevel root\n        pure (.inr root)', 'if plen = 0 then do\n        let _ ← popLevel root\n        pure (.inr root)', 'C53: the map keeps the freed root')
mut('H46', HM_, 'removeRaw', 'let old ← atNode h.node (fun n => n.replaceKv h.idx kv)\n    pure (old, f.ref)', 'let old ← atNode h.node (fun n => n.replaceKv h.idx kv)\n    pure (kv, f.ref)', 'C03: removing from an inner node returns the successor')
mut('H47', HM_, 'HMap.removeKv', 'pure (old, ⟨root, m.length - 1⟩)', 'pure (old, ⟨root, m.length⟩)', 'C03/C51: removal does not count')
mut('H48', HM_, 'intoNextStep', 'let p ← deallocateAndAscend e.ref\n    match p with\n    | some p => pure (.inl p)\n    | none => HM.ub  -- unwrap_unchecked(None)', 'let p ← ascend e.ref\n    match p with\n    | some p => pure (.inl p)\n    | none => HM.ub  -- unwrap_unchecked(None)', 'C51: IntoIter::next does not free inner nodes')
mut('H49', HM_, 'HIntoIter.next', 'let p ← deallocateAndAscend it.front.ref\n      match p with\n      | none => HM.ub', 'let p ← ascend it.front.ref\n      match p with\n      | none => HM.ub', 'C51: IntoIter::next does not free leaves')
mut('H50', HM_, 'HIntoIter.next', 'if it.front.idx < len then do\n      let kv ← readKv it.front\n      let f ← newEdge it.front.ref (it.front.idx + 1)\n      pure (some kv, { it with front := f, length := length })', 'if it.front.idx < len then do\n      let kv ← kvOf it.front\n      let f ← newEdge it.front.ref (it.front.idx + 1)\n      pure (some kv, { it with front := f, length := length })', 'not a bug of the program: reading without moving out (freeing then drops nothing either)')
mut('H51', HM_, 'HIntoIter.drop', 'if it.front.node = SHARED then pure l\n  else do\n    let r ← loopN freeUpStep (bnd + 1) it.front.ref\n    ended r\n    pure l', 'pure l', 'C51: the nodes on the path to the last leaf leak')
mut('H52', HM_, 'HIntoIter.drop', 'let r ← loopN freeUpStep (bnd + 1) it.front.ref', 'let r ← loopN freeUpStep (bnd + 1) it.back.ref', 'C51: the destructor frees the path of the back (the same path once all is consumed)')
mut('H53', HM_, 'freeUpStep', 'let p ← deallocateAndAscend r\n  match p with\n  | some p => pure (.inl p.ref)', 'let p ← deallocateAndAscend r\n  match p with\n  | some _ => pure (.inr ())', 'C51: the destructor frees only the leaf')
mut('H54', HM_, 'HIntoIter.nextBack', 'let p ← deallocateAndAscend it.back.ref\n      match p with\n      | none => HM.ub', 'let p ← ascend it.back.ref\n      match p with\n      | none => HM.ub', 'C51: next_back does not free leaves')
mut('H55', HM_, 'setVal', 'let (old, vals) ← n.vals.take CAPACITY h.idx\n    let vals ← vals.put CAPACITY h.idx v', 'let (old, _) ← n.vals.take CAPACITY h.idx\n    let vals ← n.vals.put CAPACITY h.idx v', 'C53: replacing a value overwrites it in place (the old one would be leaked)')
HI = 'Heap/Iter.lean'
mut('H60', HI, 'nextUnchecked', 'let f ← newEdge kv.ref (kv.idx + 1)\n    pure (kv, f)', 'let f ← newEdge kv.ref kv.idx\n    pure (kv, f)', 'C03: next does not advance')
mut('H61', HI, 'nextStep', 'let re ← newEdge kv.ref (kv.idx + 1)', 'let re ← newEdge kv.ref kv.idx', 'C03: next goes down the wrong edge')
mut('H62', HI, 'nextBackStep', 'let b ← lastLeafEdge c.height c.node', 'let b ← firstLeafEdge c.height c.node', 'C03/C53: next_back goes to the first leaf')
mut('H63', HI, 'HRange.done', 'r.front.node == r.back.node && r.front.idx == r.back.idx', 'r.front.idx == r.back.idx', 'C03: ranges over two leaves stop when the indices happen to agree')
mut('H64', HI, 'minEdge', 'pure (if r.2 then (r.1 + 1, true) else (r.1, false))\n  | f, .unbounded => pure (0, f)', 'pure (if r.2 then (r.1, true) else (r.1, false))\n  | f, .unbounded => pure (0, f)', 'C03: an excluded lower bound is included')
mut('H65', HI, 'maxEdge', '| true, .included _ => pure (0, true)\n  | true, .excluded _ => do\n    let len ← lenOf a\n    pure (len, true)', '| true, .included _ => do\n    let len ← lenOf a\n    pure (len, true)\n  | true, .excluded _ => pure (0, true)', 'C03/C53: below a found upper bound the wrong end is taken')
mut('H66', HI, 'rangeLoop', '(dv || lo.1 != hi.1)', '(lo.1 != hi.1)', 'C03: once diverged the check of the edges is not switched off')
HB = 'Heap/Bulk.lean'
mut('H70', HB, 'HMap.splitOff', 'pure (some ⟨r, total - ll⟩, ⟨l, ll⟩)', 'pure (some ⟨r, ll⟩, ⟨l, total - ll⟩)', 'C03/C51: split_off swaps the lengths')
mut('H71', HB, 'HMap.splitOff', 'let _ ← HMap.drop ⟨x.1, 0⟩\n        pure (none, m)', 'pure (none, m)', 'C51: a failed split_off leaks what it built')
mut('H72', HB, 'fixTop', 'if 0 < len then pure ⟨h + 1, a⟩', 'if 1 < len then pure ⟨h + 1, a⟩', 'C03/C51: fix_top cuts off a root that has a pair')
mut('H73', HB, 'fixRightLoop', 'if rl < MIN_LEN + 1 then bulkStealLeft kv (MIN_LEN + 1 - rl) else pure ()', 'bulkStealLeft kv (MIN_LEN + 1 - rl)', 'C53: bulk_steal_left is called with count 0')
mut('H74', HB, 'cloneSubtree', '| some er => do\n          let _ ← HMap.drop ⟨r, x.2⟩\n          pure (.error er)', '| some er => do\n          pure (.error er)', 'C51/C58: a failed try_clone leaks the tree built so far (only observable for try_clone)')
mut('H75', HB, 'cloneInternalStep', 'pure (.inl (e.idx, s.2 + (1 + sub.length)))', 'pure (.inl (e.idx, s.2 + sub.length))', 'C03/C51: clone does not count the separators')
mut('H76', HB, 'dfsStep', 'let n ← rec c.node\n  let len ← lenOf r.node\n  if s.1 < len then do', 'let n ← rec c.node\n  let len ← lenOf r.node\n  if s.1 + 1 < len then do', 'C03: recalc_length leaves out the last child')
HA = 'Heap/Append.lean'
mut('H80', HA, 'HMerge.next', 'let x ← a.2.next\n      let y ← b.2.next\n      pure (y.1, ⟨x.2, y.2⟩)', 'let x ← a.2.next\n      let y ← b.2.next\n      pure (x.1, ⟨x.2, y.2⟩)', 'C03: append keeps the wrong value on equal keys')
mut('H81', HA, 'HMerge.next', 'let x ← a.2.next\n      let y ← b.2.next\n      pure (y.1, ⟨x.2, y.2⟩)', 'let y ← b.2.next\n      pure (y.1, ⟨a.2, y.2⟩)', 'C03: append keeps both of two equal keys')
mut('H82', HA, 'HMap.fromSortedIter', 'let _ ← s.iter.left.drop\n', '', 'C51: append does not free the last path of the left tree')
mut('H83', HA, 'climbStep', 'if len < CAPACITY then pure (.inr (p.ref, root))', 'if len ≤ CAPACITY then pure (.inr (p.ref, root))', 'C53: append pushes into a full node')
mut('H84', HA, 'growRight', 'pushLevels (opn.height - 1) r', 'pushLevels opn.height r', 'C53/C03: append hangs a tree of the wrong height')
mut('H85', HA, 'HMap.append', '    fixRightEdge n.root.height n.root.node\n', '', 'C19 at level 2 (C03_memory via refinement): append leaves underfull nodes')
HP = 'Heap/Api.lean'
mut('H90', HP, 'HMap.clear', 'let _ ← m.drop\n  pure HMap.new', 'pure HMap.new', 'C51: clear leaks the map')
mut('H91', HP, 'HMap.orTryInsert', '| .occupied h => pure (some h, m)', '| .occupied h => do\n    let _ ← setVal h v\n    pure (some h, m)', 'C03: or_try_insert overwrites')
mut('H92', HP, 'andModify', '| .occupied h => updVal h f', '| .occupied h => do\n    updVal h f\n    updVal h f', 'C03: and_modify runs twice')
mut('H93', HP, 'HMap.extend', '| none => HM.panic "Out of Mem"\n    | some _ => m.extend rest', '| none => HM.panic "Out of Mem"\n    | some _ => pure m', 'C03: extend stops after the first item')


VW = 'BTree/Views.lean'
mut('VW01', VW, 'Map.view', '| .keys => do\n    let it ← m.iter\n    .ok (.keys it)', '| .keys => do\n    let it ← m.iter\n    .ok (.iter it)', 'C56: keys() yields pairs')
mut('VW02', VW, 'Range.clone', '⟨r.front, r.back⟩', '⟨r.front, r.front⟩', 'C56: the clone of a range is empty')
mut('VW03', VW, 'Iter.clone', '⟨it.range.clone, it.length⟩', '⟨it.range.clone, it.length + 1⟩', 'C56: the clone of an iterator counts one too many')
mut('VW04', VW, 'View.clone', '| .values it => .values it.clone', '| .values it => .keys it.clone', 'C56: a clone of Values yields keys')
mut('VW05', VW, 'View.step', 'let (x, it) ← it.stepMap (·.2) m e\n    .ok (x.map .val, .values it)', 'let (x, _) ← it.stepMap (·.2) m e\n    .ok (x.map .val, .values it)', 'C56: Values does not advance')
mut('VW06', VW, 'View.step', 'let (x, r) ← r.step m e\n    .ok (x.map .pair, .range r)', 'let (x, r) ← r.step m .front\n    .ok (x.map .pair, .range r)', 'C56: Range::next_back takes from the front')
mut('VW07', VW, 'View.sizeHint', '| .iter it | .keys it | .values it => it.sizeHint\n  | .range _', '| .iter it | .keys it => it.sizeHint\n  | .values _ | .range _', 'C56: Values has no size hint')
mut('VW08', VW, 'View.debug', '| v => v.clone.drain m (m.length + 1)', '| v => do\n    let (_, v) ← v.step m .front\n    v.clone.drain m (m.length + 1)', 'C56: Debug leaves out the first item')
mut('VW09', VW, 'View.drain', 'let (x, v) ← v.step m .front', 'let (x, v) ← v.step m .back', 'C56: Debug prints in reverse order')
mut('VW10', VW, 'ViewAct.run', '.ok (.item x, p.set i v)', '.ok (.item x, p.set (i + 1) v)', 'C56: (driver) the step of one iterator changes its neighbour')
mut('VW11', VW, 'Map.view', 'let r ← m.range bor lo hi\n    .ok (.setRange r)', 'let r ← m.range bor hi lo\n    .ok (.setRange r)', 'C56: set range with the bounds swapped')
GW = 'BTree/AlgViews.lean'
mut('GW01', GW, 'Peekable.clone', '⟨p.iter.clone, p.peeked⟩', '⟨p.iter.clone, none⟩', 'C57: cloning drops the peeked item')
mut('GW03', GW, 'TwoIters.clone', '⟨t.a.clone, t.b.clone⟩', '⟨t.a.clone, t.a.clone⟩', 'C57: cloning a union duplicates its left side')
mut('GW04', GW, 'AlgView.next', 'let r ← t.symDiffNext\n    .ok (r.1, .symmetricDifference r.2)', 'let r ← t.unionNext\n    .ok (r.1, .symmetricDifference r.2)', 'C57: symmetric difference yields the union')
mut('GW05', GW, 'AlgView.sizeHint', '| .symmetricDifference t => t.symDiffHint', '| .symmetricDifference t => t.unionHint', 'C57: the size hint of the symmetric difference is that of the union')
mut('GW06', GW, 'AlgAct.run', '| .clone i => onAlg p i fun v => .ok (.opened, p ++ [v.clone])', '| .clone i => onAlg p i fun v => .ok (.opened, p ++ [v])', 'C57: equivalent (the model is pure): survives')
YB = 'Heap/Bytes.lean'
mut('YW01', YB, 'alignUp', '(n + a - 1) / a * a', 'n / a * a', 'C58: fields rounded down overlap')
mut('YW02', YB, 'reprC', 'reprC fs (at\' + f.size)', 'reprC fs (o + f.size)', 'C58: padding not counted')
mut('YW03', YB, 'reprC', 'max f.align r.align⟩', 'f.align⟩', 'C58: the struct is aligned like its first field only')
mut('YW04', YB, 'header', 'reprC [ptrTy p, u16Ty, u16Ty, array k2 0] 0', 'reprC [ptrTy p, u16Ty, array k2 0, u16Ty] 0', 'C58: keys_start before len: the key slice starts inside the header')
mut('YW05', YB, 'leaf', 'array k CAPACITY, array v CAPACITY] 0', 'array v CAPACITY, array k CAPACITY] 0', 'C58: values before keys')
mut('YW06', YB, 'internal', 'array (ptrTy p) (2 * B)] 0', 'array (ptrTy p) CAPACITY] 0', 'C58: room for eleven edges only')
mut('YW07', YB, 'intoKeySlice', 'if (leaf p unitTy unitTy).align < k.align ∧ isShared = true then .ok .empty', 'if (leaf p unitTy unitTy).align ≤ k.align ∧ isShared = true then .ok .empty', 'C58: equivalent for the claim? an aligned key slice of the shared root becomes &[] as well')
mut('YW08', YB, 'intoKeySlice', 'if (leaf p unitTy unitTy).align < k.align ∧ isShared = true then .ok .empty\n  else if', 'if', 'C58: over-aligned slices of the shared root are made')
mut('YW09', YB, 'intoKeySlice', 'else if (header p unitTy).size = (header p k).size then .ok', 'else if true then .ok', 'C58: the assertion is dropped (over-aligned keys are then read at the right place: only C58_overaligned is false)')
mut('YW10', YB, 'intoKeySliceMut', '.at ((leaf p k v).offsets.getD 3 0) len\n\nend', '.at ((leaf p k v).offsets.getD 4 0) len\n\nend', 'C58: keys_mut points at the values')
UW = 'BTree/Unwind.lean'
mut('UW01', UW, 'Map.tryEntryP', '| none => .ok (.unwound r.2.1 .cmp)\n    | some (.found hd', '| none => .ok (.unwound { r.2.1 with length := r.2.1.length + 1 } .cmp)\n    | some (.found hd', 'C61: the length is counted before the search')
mut('UW02', UW, 'Map.removeEntryP', '| none => .ok (.unwound m .cmp)\n  | some (.found hd, fuel) => do', '| none => .ok (.unwound { m with length := m.length - 1 } .cmp)\n  | some (.found hd, fuel) => do', 'C61: the length is decremented before the search')
mut('UW03', UW, 'mergeIterP', '| 0, _ :: _, _ :: _ => ([], none)', '| 0, a :: _, _ :: _ => ([a], none)', 'C61: the left item is taken before it is compared')
mut('UW04', UW, 'fromSortedP', '| .ok (some t\', a) => fromSortedP ⟨t.1, t\'⟩ (len + 1) rest a', '| .ok (some t\', a) => fromSortedP ⟨t.1, t\'⟩ len rest a', 'C61: from_sorted_iter counts at the end only: after a memory panic the length is too low')
mut('UW05', UW, 'fromSortedP', 'else .ok (.unwound ⟨t.1 + 1, top, false, len⟩ .mem)', 'else .ok (.unwound ⟨t.1, top, false, len⟩ .mem)', 'C61: push_level updates the height after the refused request')
mut('UW06', UW, 'Map.appendP', '| .unwound m\' w => .ok (.unwound (m\', Map.new) w)', '| .unwound m\' w => .ok (.unwound (m\', other) w)', 'C61: other is emptied at the end only (double ownership)')
mut('UW07', UW, 'Map.appendP', 'own.2.1.length + items.1.length⟩, Map.new) .cmp)', 'own.2.1.length⟩, Map.new) .cmp)', 'C61: append sets the length at the end only')
mut('UW08', UW, 'Map.extendP', '| .done ((.ok _, m, a), fuel) => m.extendP rest a fuel', '| .done ((.ok _, m, a), fuel) => .ok (.done ((m, a), fuel))', 'C61: extend stops after the first pair')
mut('UW09', UW, 'splitLoopP', '| none => .ok (.unwound (l, r) .cmp)', '| none => .ok (.unwound (r, l) .cmp)', 'C62: the wrong tree is kept')
mut('UW10', UW, 'Map.splitOffP', '| .unwound (l, _) w => .ok (.unwound { m with root := l } w)', '| .unwound (l, _) w => .ok (.unwound { m with root := l, length := 0 } w)', 'C62: the length is reset first (then nothing is iterated, but the claim that len() is unchanged is false)')
mut('UW11', UW, 'Map.appendP', 'let t\' ← fixRightEdge t.1 t.2\n          .ok (.done ((⟨t.1, t\',', 'let t\' := t.2\n          .ok (.done ((⟨t.1, t\',', 'C61: an append that does not unwind is not what append does')
mut('UW12', UW, 'searchFromP', '| kv :: rest, fuel + 1 =>\n    match compare q (bor kv.1) with', '| kv :: rest, fuel + 1 =>\n    match compare (bor kv.1) q with', 'C61/C62: comparison the wrong way round')
ZU = 'Heap/Unwind.lean'
mut('ZU01', ZU, 'HMap.extendU', '| none => pure (false, m)', '| none => pure (true, m)', 'C64: extend reports success when memory is refused')
mut('ZU02', ZU, 'HMap.fromIterU', 'let _ ← m.drop\n    pure none', 'pure none', 'C64: the unfinished map is leaked, not dropped, while unwinding: no undefined behaviour then')
mut('ZU03', ZU, 'HMerge.nextU', 'pure (some (y.1, x.1.toList, fuel), ⟨x.2, y.2⟩)', 'pure (some (x.1, y.1.toList, fuel), ⟨x.2, y.2⟩)', 'C65: of two equal keys the pair of self wins')
mut('ZU04', ZU, 'HMerge.nextU', 'pure (some (y.1, x.1.toList, fuel), ⟨x.2, y.2⟩)', 'pure (some (y.1, [], fuel), ⟨x.2, y.2⟩)', 'C65: the overridden pair is not dropped')
mut('ZU05', ZU, 'HMerge.nextU', '| 0 => pure (none, ⟨a.2, b.2⟩)', '| 0 => do\n      let x ← a.2.next\n      pure (none, ⟨x.2, b.2⟩)', 'C65: the left pair is moved out before the comparison that panics, and lost')
mut('ZU06', ZU, 'buildStepU', 'pure (.inl ⟨x.2, r.2, c, s.length + 1, f, s.dropped ++ d⟩)', 'pure (.inl ⟨x.2, r.2, c, s.length, f, s.dropped ++ d⟩)', 'C65: from_sorted_iter does not count as it goes: what is in the map leaks')
mut('ZU07', ZU, 'buildStepU', 's.dropped ++ d ++ [kv]⟩', 's.dropped ++ d⟩', 'C65: the pair in hand when memory is refused is forgotten')
mut('ZU08', ZU, 'HMap.fromSortedIterU', 'let r ← x.2.iter.right.drop\n    pure (x.1, ⟨x.2.root, x.2.length⟩, x.2.dropped ++ l ++ r)', 'pure (x.1, ⟨x.2.root, x.2.length⟩, x.2.dropped ++ l)', 'C65: the iterator over other is forgotten')
mut('ZU09', ZU, 'HMap.appendU', '| some w => pure (some w, n.2.1, HMap.new, n.2.2)', '| some w => pure (some w, n.2.1, o, n.2.2)', 'C65: other is emptied at the end only: double drop')
mut('ZU10', ZU, 'HMap.appendU', '| some w => pure (some w, n.2.1, HMap.new, n.2.2)', '| some w => pure (some w, m, HMap.new, n.2.2)', 'C65: self is replaced at the end only: double drop')
mut('ZU11', ZU, 'buildStepU', '| none => pure (.inr (some .mem, ⟨x.2, r.2, s.cur, s.length, f,', '| none => pure (.inr (some .mem, ⟨x.2, r.2, s.cur, s.length + 1, f,', 'C65: the length is counted before the push that fails: dropping self runs past the end')
mut('ZU12', ZU, 'HIntoIter.drainP', '| 0 => pure ([kv], false, it)', '| 0 => pure ([], false, it)', 'C66: the pair whose destructor panics is not taken out before')
mut('ZU13', ZU, 'HIntoIter.drainP', '| 0 => pure ([kv], false, it)', '| 0 => do\n        let (l, _, it) ← HIntoIter.drainP bnd n 0 it\n        pure (kv :: l, false, it)', 'C66: a guard goes on dropping after the panic (as later versions of std do)')
mut('ZU14', ZU, 'HIntoIter.dropP', 'else pure (l, false)', 'else do\n    let r ← loopN freeUpStep (bnd + 1) it.front.ref\n    ended r\n    pure (l, true)', 'C66: the panic is swallowed and the path freed')
mut('ZU15', ZU, 'HMap.clearP', 'pure (l, b, HMap.new)', 'pure (l, b, if b then HMap.new else m)', 'C66: clear stores the new map only if dropping returned: use after free')
mut('ZU16', ZU, 'Op.hcall', 'pure (.items xs, l, b, p.set i HMap.new)', 'pure (.items xs, l, b, if b then p.set i HMap.new else p)', 'C66: a consumed map is still owned when its destructor panicked')
mut('ZU17', ZU, 'HMap.intoIterP', 'let (l, b) ← xs.2.dropP m.root.height calm', 'let (l, b) ← it.dropP m.root.height calm', 'C66: the iterator is dropped in its first state: double drop')
mut('ZU18', ZU, 'HMap.fromSortedIterU', 'let l ← iter.left.drop\n    let r ← iter.right.drop\n    pure (some .mem, m, l ++ r)', 'let l ← iter.left.drop\n    pure (some .mem, m, l)', 'C65: when the first request is refused the pairs of other are leaked')
CL = 'Heap/CloneLedger.lean'
mut('CL01', CL, 'cloneKvL', '| .error e => pure (.error e, [k])', '| .error e => pure (.error e, [])', 'C67: the clone of a key whose value can not be cloned is forgotten')
mut('CL02', CL, 'cloneLeafStepL', 'pure (.inl (e.idx, s.2.1 + 1, s.2.2 ++ [kv]))', 'pure (.inl (e.idx, s.2.1, s.2.2 ++ [kv]))', 'C67: out_tree.length is not counted: the clones leak')
mut('CL03', CL, 'cloneInternalStepL', 'sub.2.dropped ++ [kv]⟩', 'sub.2.dropped⟩', 'C67: the pair in hand is forgotten when the subtree can not be cloned')
mut('CL04', CL, 'cloneInternalStepL', 's.2.1 + (1 + m.length)', 's.2.1 + m.length', 'C67: separators are not counted')
mut('CL05', CL, 'cloneSubtreeL', 'let d ← HMap.drop ⟨r, x.2.1⟩\n        pure (.error er, ⟨x.2.2.made, x.2.2.lone, x.2.2.dropped ++ d⟩)\n  | h + 1', 'pure (.error er, x.2.2)\n  | h + 1', 'C67: a partial leaf is leaked')
mut('CL06', CL, 'cloneSubtreeL', 'let d ← m.drop\n        pure (.error .allocError, ⟨first.2.made, first.2.lone, first.2.dropped ++ d⟩)', 'pure (.error .allocError, first.2)', 'C67: the first subtree is leaked when push_level fails')
mut('CL07', CL, 'cloneInternalStepL', 'let c ← descend e\n      let sub ← rec', 'let c ← descend ⟨src.height, src.node, s.1⟩\n      let sub ← rec', 'C67: the wrong child is cloned')
mut('CL08', CL, 'cloneSubtreeL', 'let d ← HMap.drop ⟨r, x.2.1⟩\n          pure (.error er, ⟨x.2.2.made, x.2.2.lone, x.2.2.dropped ++ d⟩)', 'let d ← HMap.drop ⟨r, x.2.1⟩\n          let d2 ← HMap.drop ⟨r, x.2.1⟩\n          pure (.error er, ⟨x.2.2.made, x.2.2.lone, x.2.2.dropped ++ d ++ d2⟩)', 'C67: the partial tree is dropped twice')
mut('CL09', CL, 'HMap.tryCloneL', 'if m.length = 0 then', 'if m.length ≤ 1 then', 'C67: the copy of a map with one entry is empty')
mut('CL10', CL, 'cloneInternalStepL', '      | .error er => pure (.inr (some er, s.2.1, ⟨s.2.2 ++ kv :: sub.2.made', '      | .error er => do\n        pushInternal out kv ⟨src.height - 1, c.node⟩\n        pure (.inr (some er, s.2.1 + 1, ⟨s.2.2 ++ kv :: sub.2.made', 'C67: on failure the original subtree is linked into the copy')

US = 'Heap/UnwindSplit.lean'
mut('US01', US, 'searchKeysU', '| .gt => searchKeysU bor q a (i + 1) n fuel', '| .gt => searchKeysU bor q a (i + 1) n (fuel + 1)', 'C68: comparisons that go on are not counted')
mut('US02', US, 'splitLoopU', 'let e ← newEdge ⟨0, l⟩ i\n      moveSuffix e ⟨0, r⟩', 'let e ← newEdge ⟨0, l⟩ (i + 1)\n      moveSuffix e ⟨0, r⟩', 'C68: the cut in the leaf is one too late')
mut('US03', US, 'splitLoopU', 'let e ← newEdge ⟨h + 1, l⟩ i', 'let e ← newEdge ⟨h + 1, l⟩ 0', 'C68: everything is cut off at an internal node')
mut('US04', US, 'splitLoopU', '      let f ← newEdge ⟨h + 1, r⟩ 0\n      let cr ← descend f\n      splitLoopU bor q h cl.node cr.node fuel', '      let f ← newEdge ⟨h + 1, r⟩ 0\n      let cr ← descend f\n      splitLoopU bor q h cl.node cr.node 1000', 'C68: comparisons below the root never panic')
mut('US05', US, 'HMap.splitOffU', 'let d ← HMap.drop ⟨x.1, 0⟩\n          pure (.unwound d, m)', 'let d ← HMap.drop ⟨x.1, 1⟩\n          pure (.unwound d, m)', 'C68: the map under construction claims to have an entry')
mut('US06', US, 'HMap.splitOffU', 'pure (.unwound d, m)', 'pure (.unwound d, ⟨m.root, 0⟩)', 'C68: self is left with length 0')
mut('US07', US, 'HMap.splitOffU', 'let d ← HMap.drop ⟨x.1, 0⟩\n          pure (.unwound d, m)', 'pure (.unwound [], m)', 'C68: the map under construction is never dropped')
mut('US08', US, 'HMap.splitOffU', 'let d ← HMap.drop ⟨x.1, 0⟩\n          pure (.unwound d, m)', 'let d ← HMap.drop ⟨x.1, 0⟩\n          let d2 ← HMap.drop m\n          pure (.unwound (d ++ d2), m)', 'C68: self is dropped while unwinding')
mut('US09', US, 'HMap.splitOffU', 'if l.height < r.height then do\n            let ll', 'if l.height ≤ r.height then do\n            let ll', 'C68: counts the left map on equal heights (no effect seen)')
mut('US10', US, 'HMap.splitOffU', 'pure (.returned (some ⟨r, rl⟩), ⟨l, total - rl⟩)', 'pure (.returned (some ⟨r, rl⟩), ⟨l, total⟩)', 'C68: the length of self is not reduced')
mut('US11', US, 'searchKeysU', '| .eq => pure (some ((i, true), fuel))', '| .eq => pure (some ((i + 1, true), fuel))', 'C68: an equal key stays on the left')
mut('US12', US, 'splitLoopU', '    match x with\n    | none => pure none\n    | some ((i, _), fuel) => do\n      let e ← newEdge ⟨0, l⟩ i', '    match x with\n    | none => do\n      let e ← newEdge ⟨0, l⟩ 0\n      moveSuffix e ⟨0, r⟩\n      pure none\n    | some ((i, _), fuel) => do\n      let e ← newEdge ⟨0, l⟩ i', 'C68: the leaf is moved when its search panics')

UO = 'Heap/UnwindOps.lean'
mut('UO01', UO, 'HMap.removeEntryU', '  match x with\n  | none => pure (none, m)\n  | some (.found h, fuel) => do\n    let (kv, m) ← m.removeKv h', '  match x with\n  | none => pure (none, ⟨m.root, m.length - 1⟩)\n  | some (.found h, fuel) => do\n    let (kv, m) ← m.removeKv h', 'C69: remove counts the entry off before its search is over')
mut('UO02', UO, 'HMap.tryEntryU', '    | none => pure (none, m)\n    | some (.found h, fuel) => pure (some (some (.occupied h), fuel), m)', '    | none => pure (none, ⟨m.root, m.length + 1⟩)\n    | some (.found h, fuel) => pure (some (some (.occupied h), fuel), m)', 'C69: the entry is counted before the search is over')
mut('UO03', UO, 'HMap.extendC', '    | (none, m) => pure (none, m)\n    | (some (none, _), _)', '    | (none, m) => pure (none, ⟨m.root, 0⟩)\n    | (some (none, _), _)', 'C69: an unwound extend leaves length 0')
mut('UO04', UO, 'HMap.extendC', '| (some (some _, fuel), m) => m.extendC rest fuel', '| (some (some _, fuel), m) => m.extendC (rest.drop 1) fuel', 'C69: extend skips pairs')
mut('UO05', UO, 'searchTreeU', '      else do\n        let c ← descend ⟨h + 1, a, i⟩', '      else do\n        let c ← descend ⟨h + 1, a, i + 1⟩', 'C69: the search descends into the wrong child')
mut('UO06', UO, 'HMap.replaceKeyU', '    | none => pure (none, m)\n    | some (.found h, fuel) => do\n      let old ← setKey h k', '    | none => do\n      let _ ← m.drop\n      pure (none, m)\n    | some (.found h, fuel) => do\n      let old ← setKey h k', 'C69: the map is dropped while unwinding, and used later')
mut('UO07', UO, 'HMap.updateValU', '  | none => pure none\n  | some (.goDown _, fuel) => pure (some (false, fuel))', '  | none => do\n    updVal ⟨m.root.height, m.root.node, 0⟩ f\n    pure none\n  | some (.goDown _, fuel) => pure (some (false, fuel))', 'C69: get_mut changes a value although it is unwound')
mut('UO08', UO, 'rangeCheckU', '      if compare s e = .eq then .panic "range start and end are equal and excluded in BTreeMap"', '      if compare s e = .gt then .panic "range start and end are equal and excluded in BTreeMap"', 'C69: equal excluded bounds are let through')
mut('UO09', UO, 'minEdgeU', 'pure (some (if r.2 then (r.1 + 1, true) else (r.1, false), fuel))\n  | f, .unbounded => pure (some ((0, f), fuel))', 'pure (some (if r.2 then (r.1, true) else (r.1, false), fuel))\n  | f, .unbounded => pure (some ((0, f), fuel))', 'C69: an excluded lower bound is included')
mut('UO10', UO, 'rangeLoopU', 'rangeLoopU bor s e h cmin.node cmax.node lo.2 hi.2 (dv || lo.1 != hi.1) fuel', 'rangeLoopU bor s e h cmin.node cmax.node hi.2 lo.2 (dv || lo.1 != hi.1) fuel', 'C69: the found flags are swapped')
mut('UO11', UO, 'HMap.tryInsertU', '  | (some (some (.occupied h), fuel), m) => do\n    let old ← setVal h v', '  | (some (some (.occupied h), fuel), m) => do\n    let old ← setVal h v\n    let m : HMap := ⟨m.root, m.length + 1⟩', 'C69: replacing a value counts it')
mut('UO12', UO, 'Op.hcuts', '      let rs ← Op.hcuts bor ops r.2\n', '      let rs ← Op.hcuts bor ops (if r.1.isSome then r.2 else p.map fun m => ⟨m.root, 0⟩)\n', 'C69: an unwound call empties all maps')
mut('UO13', UO, 'thenRemove', '  | (some (.occupied h), m) => do\n    let (kv, m) ← m.removeKv h\n    pure (.pair (some kv), m)', '  | (some (.occupied h), m) => do\n    let (kv, _) ← m.removeKv h\n    pure (.pair (some kv), m)', 'C69: the map is not updated by the removal through an entry')
mut('UO14', UO, 'HMap.tryEntryU', '    | none => pure (none, m)\n    | some (.found h, fuel) => pure (some (some (.occupied h), fuel), m)', '    | none => do\n      let _ ← (newLeaf : HM K V _)\n      pure (none, m)\n    | some (.found h, fuel) => pure (some (some (.occupied h), fuel), m)', 'C69: a node is leaked while unwinding')

OD = 'Heap/Debug.lean'
mut('OD01', OD, 'HIntoIter.debug', '⟨it.front, it.back⟩', '⟨it.front, it.front⟩', 'C70: the printing ends at its start')
mut('OD02', OD, 'HIntoIter.debug', '⟨it.front, it.back⟩', '⟨it.back, it.front⟩', 'C70: the ends are swapped')
mut('OD03', OD, 'HRange.walk', 'let x ← r.step bnd .front', 'let x ← r.step bnd .back', 'C70: printed backwards')
mut('OD04', OD, 'HIntoIter.act', '    let l ← it.debug bnd\n    pure (.listed l, it)', '    let l ← it.drain bnd (it.length + 1)\n    pure (.listed l.1, l.2)', 'C70: printing consumes')
mut('OD05', OD, 'HIntoIter.act', '.count it.length', '.count (it.length - 1)', 'C70: len is one too low')
mut('OD06', OD, 'HIntoIter.act', '    let x ← it.ask bnd e\n    pure (.item x.1, x.2)', '    let x ← it.ask bnd e\n    pure (.item x.1, { x.2 with length := it.length })', 'C70: len is not updated')
mut('OD07', OD, 'HMap.useUp', '  let rest ← xs.2.drop m.root.height\n', '  let rest ← xs.2.drain m.root.height (xs.2.length + 1)\n  let rest := rest.1\n', 'C70: the last nodes are not freed')
mut('OD08', OD, 'HMap.useUp', '  let rest ← xs.2.drop m.root.height\n', '  let rest ← it.drop m.root.height\n', 'C70: the iterator is dropped as it was at the start')

AU = 'BTree/AlgUnwind.lean'
mut('AU01', AU, 'TwoIters.unionNextP', '  | none => .ok (.unwound ⟨p.2, q.2⟩ .cmp)\n  | some (.lt, cmps) => do\n    let n ← p.2.next\n    .ok (.done ((n.1, ⟨n.2, q.2⟩), cmps))\n  | some (.eq, cmps) => do\n    let n\' ← q.2.next', '  | none => do\n    let n ← p.2.next\n    .ok (.unwound ⟨n.2, q.2⟩ .cmp)\n  | some (.lt, cmps) => do\n    let n ← p.2.next\n    .ok (.done ((n.1, ⟨n.2, q.2⟩), cmps))\n  | some (.eq, cmps) => do\n    let n\' ← q.2.next', 'C71: union takes the item before it compares')
mut('AU02', AU, 'symDiffLoopP', '    | none => .ok (.unwound ⟨p.2, q.2⟩ .cmp)', '    | none => do\n      let n ← q.2.next\n      .ok (.unwound ⟨p.2, n.2⟩ .cmp)', 'C71: symmetric difference takes the item before it compares')
mut('AU03', AU, 'TwoIters.unionNextP', 'let n\' ← q.2.next\n    let n ← p.2.next\n    .ok (.done ((n.1, ⟨n.2, n\'.2⟩), cmps))', 'let n ← p.2.next\n    .ok (.done ((n.1, ⟨n.2, q.2⟩), cmps))', 'C71: union hands out equal elements twice')
mut('AU04', AU, 'differenceStitchP', '| none => .ok (.unwound (.stitch i p.2) .cmp)', '| none => do\n      let n ← i.next\n      .ok (.unwound (.stitch n.2 p.2) .cmp)', 'C71: a panic loses two elements')
mut('AU05', AU, 'differenceStitchP', '| none => .ok (.unwound (.stitch i p.2) .cmp)', '| none => do\n      let j\' ← p.2.next\n      .ok (.unwound (.stitch i j\'.2) .cmp)', 'C71: a panic loses an element of the other set, so that an element too many comes out')
mut('AU06', AU, 'differenceSearchP', '| none => .ok (.unwound (.search n.2 o) .cmp)\n      | some (true, cmps) => differenceSearchP', '| none => .ok (.unwound (.search i o) .cmp)\n      | some (true, cmps) => differenceSearchP', 'C71: the element searched for is not lost (stronger than the code: no claim is false)')
mut('AU07', AU, 'intersectionStitchP', '| none => .ok (.unwound (.stitch i j) .cmp)', '| none => do\n      let n ← i.next\n      .ok (.unwound (.stitch n.2 j) .cmp)', 'C71: a panic loses two elements')
mut('AU08', AU, 'intersectionStitchP', '| some (.eq, cmps) => .ok (.done ((some x, .stitch i j), cmps))', '| some (.eq, cmps) => .ok (.done ((some y, .stitch i j), cmps))', 'C71: the objects of the larger set come out')
mut('AU09', AU, 'intersectionSearchP', '      | none => .ok (.unwound (.search n.2 o) .cmp)\n      | some (true, cmps) => .ok', '      | none => .ok (.done ((none, .search n.2 o), 0))\n      | some (true, cmps) => .ok', 'C71: a panic passes for the end')
mut('AU10', AU, 'differenceStitchP', '      | none => .ok (.done ((none, .stitch n.2 p.2), cmps))\n      | some x\' => do\n        let j\' ← p.2.next\n        differenceStitchP fuel x\' n.2 j\'.2 cmps', '      | none => .ok (.done ((none, .stitch n.2 p.2), cmps))\n      | some x\' => do\n        differenceStitchP fuel x\' n.2 p.2 cmps', 'C71: equal elements of the other set are not passed (no claim is false)')
mut('AU11', AU, 'BSet.containsP', '| some (.goDown _, cmps) => .ok (some (false, cmps))', '| some (.goDown _, cmps) => .ok (some (true, cmps))', 'C71: contains answers true for missing elements')
mut('AU12', AU, 'cmpP', '| some _, some _, 0 => none', '| some _, some _, 0 => some (short, 0)', 'C71: panics pass for an order')
mut('AU13', AU, 'Difference.nextP', '| some x => differenceStitchP (j.len + 1) x n.2 j cmps', '| some x => differenceStitchP (j.len + 1) x i j cmps', 'C71: the element is compared but not taken')

mut('SX01', S, 'BSet.clear', '⟨s.map.clear⟩', '⟨s.map⟩', 'C29: clear keeps the elements')
mut('SX02', S, 'BSet.isEmpty', 's.len == 0', 's.len == 1', 'C29: is_empty is off by one')
mut('SX03', S, 'BSet.fromIter', '(BSet.new : BSet T).extend l a', '(BSet.new : BSet T).extend (l.drop 1) a', 'C29: from_iter forgets the first element')
mut('SX04', S, 'BSet.extend', '| .ok _ => BSet.extend r.2.1 xs r.2.2', '| .ok _ => BSet.extend s xs r.2.2', 'C29: extend forgets its insertions')
mut('SX05', S, 'BSet.clone', 'let r ← s.map.clone fk id a', 'let r ← s.map.clone id id a', 'C29: clone does not clone the elements')

AO = 'Heap/AnyOrd.lean'
mut('AO01', AO, 'searchKeysO', '| some .eq => pure (some ((i, true), c.rest))', '| some .eq => pure (some ((i + 1, true), c.rest))', 'C72: a hit is reported one slot too far, beyond the end of the node')
mut('AO02', AO, 'searchKeysO', '| some .gt => searchKeysO bor q a (i + 1) n c.rest', '| some .gt => searchKeysO bor q a (i + 1) (n + 1) c.rest', 'C72: the search runs past the keys of the node')
mut('AO03', AO, 'searchLinearO', 'searchKeysO bor q a 0 len c', 'searchKeysO bor q a 1 len c', 'C72: the search starts at the second key and reads past the last')
mut('AO04', AO, 'searchKeysO', '| none => pure none\n    | some .gt', '| none => pure (some ((i, true), c.rest))\n    | some .gt', 'C72: a panic passes for equality')
mut('AO05', AO, 'searchKeysO', '| some .lt => pure (some ((i, false), c.rest))', '| some .lt => searchKeysO bor q a (i + 1) n c.rest', 'C72: the search goes on after less (honest orders no longer give the ordinary program)')
mut('AO06', AO, 'HMap.tryEntryO', '| none => pure (none, m)\n    | some (.found h, c) => pure (some (some (.occupied h), c), m)', '| none => pure (none, HMap.new)\n    | some (.found h, c) => pure (some (some (.occupied h), c), m)', 'C72: unwinding forgets the map, which leaks')
mut('AO07', AO, 'HMap.removeEntryO', '| some (.goDown _, _) => pure (some none, m)', '| some (.goDown h, _) => do\n    let (kv, m) ← m.removeKv h\n    pure (some (some kv), m)', 'C72: remove takes the entry at the gap, which may be past the end')
mut('AO08', AO, 'HMap.extendO', '| (none, m) => pure (false, m)\n    | (some (none, _), _) => HM.panic', '| (none, m) => m.extendO rest c\n    | (some (none, _), _) => HM.panic', 'C72: extend goes on after a panic')
mut('AO09', AO, 'HMap.extendO', '| (none, m) => pure (false, m)\n    | (some (none, _), _) => HM.panic', '| (none, m) => pure (true, m)\n    | (some (none, _), _) => HM.panic', 'C72: extend hides the panic')
mut('AO10', AO, 'rangeCheckO', 'if x = .eq then .panic "range start and end are equal and excluded in BTreeMap"', 'if x = .eq then .ok (some c.rest)', 'C72: (honest) equal excluded bounds are accepted')
mut('AO11', AO, 'rangeLoopO', 'if !dv && hi.1 < lo.1 then HM.panic "Ord is ill-defined in BTreeMap range"\n        else do\n          let f ← newEdge ⟨0, amin⟩ lo.1', 'if false then HM.panic "Ord is ill-defined in BTreeMap range"\n        else do\n          let f ← newEdge ⟨0, amin⟩ lo.1', 'C72: an ill-defined order gives a range whose ends cross: iterating runs past the end')
mut('AO12', AO, 'rangeLoopO', 'if !dv && hi.1 < lo.1 then HM.panic "Ord is ill-defined in BTreeMap range"\n        else do\n          let f ← newEdge ⟨h + 1, amin⟩ lo.1', 'if false then HM.panic "Ord is ill-defined in BTreeMap range"\n        else do\n          let f ← newEdge ⟨h + 1, amin⟩ lo.1', 'C72: an ill-defined order gives a range whose ends cross (internal node)')
mut('AO13', AO, 'rangeLoopO', '(dv || lo.1 != hi.1) c', '(dv || lo.1 == hi.1) c', 'C72: diverged is computed the wrong way round')
mut('AO14', AO, 'rangeLoopO', 'rangeLoopO bor s e h cmin.node cmax.node lo.2 hi.2', 'rangeLoopO bor s e h cmin.node cmax.node hi.2 lo.2', 'C72: the found flags are swapped')
mut('AO15', AO, 'minEdgeO', '| false, .excluded q => do\n    let x ← searchLinearO bor q a c\n    match x with\n    | none => pure none\n    | some (r, c) => pure (some (if r.2 then (r.1 + 1, true) else (r.1, false), c)', '| false, .excluded q => do\n    let x ← searchLinearO bor q a c\n    match x with\n    | none => pure none\n    | some (r, c) => pure (some (if r.2 then (r.1 + 2, true) else (r.1, false), c)', 'C72: an excluded lower bound skips two, past the end of the node')
mut('AO16', AO, 'maxEdgeO', 'pure (some ((len, f), c))', 'pure (some ((len + 1, f), c))', 'C72: an unbounded end is one past the last edge')
mut('AO17', AO, 'splitLoopO', 'let f ← newEdge ⟨h + 1, r⟩ 0', 'let f ← newEdge ⟨h + 1, r⟩ 1', 'C72: split_off goes down the second edge of the new node, which is not there')
mut('AO18', AO, 'HMap.splitOffO', 'pure (some ⟨r, rl⟩, ⟨l, total - rl⟩)', 'pure (some ⟨r, total - rl⟩, ⟨l, rl⟩)', 'C72: split_off swaps the lengths')
mut('AO19', AO, 'HMap.splitOffO', 'let r ← fixLeftBorder x.1', 'let r ← pure x.1', 'C72: split_off does not repair the new map (empty nodes remain)')
mut('AO20', AO, 'HMerge.nextO', 'pure ((y.1, ⟨x.2, y.2⟩), c.rest)', 'pure ((x.1, ⟨x.2, y.2⟩), c.rest)', 'C72: append keeps the left pair of two equal ones')
mut('AO21', AO, 'HMerge.nextO', '| some .eq => do\n      let x ← a.2.next\n      let y ← b.2.next\n      pure ((y.1, ⟨x.2, y.2⟩), c.rest)', '| some .eq => do\n      let y ← b.2.next\n      pure ((y.1, ⟨a.2, y.2⟩), c.rest)', 'C72: append keeps both of two equal pairs (honest orders differ)')
mut('AO22', AO, 'HMap.fromSortedIterO', 'let _ ← s.iter.left.drop\n', '', 'C72: append leaks what is left of the left iterator')
mut('AO23', AO, 'HMap.appendO', 'pure (n, HMap.new)', 'pure (n, o)', 'C72: append leaves the other map pointing to freed nodes')
mut('AO24', AO, 'HMap.appendO', 'fixRightEdge n.root.height n.root.node', 'pure ()', 'C72: append does not repair the right edge')
mut('AO25', AO, 'HMap.replaceKeyO', '| none => pure (none, m)\n    | some (.found h, _) => do\n      let old ← setKey h k', '| none => pure (some (some none), m)\n    | some (.found h, _) => do\n      let old ← setKey h k', 'C72: replace hides the panic')
mut('AO26', AO, 'HMap.tryInsertO', 'let old ← setVal h v\n    pure (some (some (some old), c), m)', 'let old ← setVal h v\n    pure (some (some none, c), m)', 'C72: insert forgets the old value')
mut('AO27', AO, 'HMap.openRangeO', '| _ => pure ((.panicked, p), c\')', '| _ => pure ((.panicked, []), c\')', 'C72: a panicking range closes the other iterators')
mut('AO28', AO, 'HMap.rangeRunO', '| some none => pure none\n  | some (some (r, _)) => do\n    let xs ← r.run', '| some none => pure (some .panicked)\n  | some (some (r, _)) => do\n    let xs ← r.run', 'C72: a panicking comparison is reported as bad bounds')
mut('AO29', AO, 'searchTreeO', 'searchTreeO bor q h d.node c', 'searchTreeO bor q h a c', 'C72: the search does not go down')
mut('AO30', AO, 'HMap.withEntryO', '| (none, m) => pure (none, m)\n  | (some (e, _), m) => do', '| (none, _) => pure (none, m)\n  | (some (e, _), m) => do', 'C72: unwinding from try_entry restores the old root although a new one was allocated')
mut('AO31', AO, 'HMap.updateValO', '| some (.goDown _, _) => pure (some false)', '| some (.goDown h, _) => do\n    updVal h f\n    pure (some true)', 'C72: get_mut hands out the value at the gap')
mut('AO32', AO, 'HMap.getKeyValueO', '| some (.goDown _, _) => pure (some none)', '| some (.goDown h, _) => do\n    let kv ← kvOf h\n    pure (some (some kv))', 'C72: get reads the slot at the gap')

CC = 'Heap/Conc.lean'
mut('CC01', CC, 'Op.shared', '| .views .. => true', '| .views .. | .remove .. => true', 'C73: removing from a shared map passes for reading')
mut('CC02', CC, 'Op.shared', '| .views .. => true', '| .views .. | .iterMut .. => true', 'C73: writing to the values of a shared map passes for reading')
mut('CC03', CC, 'Op.shared', '| .views .. => true', '| .views .. | .intoIter .. => true', 'C73: a shared map may be consumed')
mut('CC04', CC, 'thread', '| .shared op :: cs, p => (d sh op).bind fun r =>', '| .shared op :: cs, p => (d p op).bind fun r =>', 'C73: threads read their own map instead of the shared one')
mut('CC05', CC, 'thread', 'if Op.spoils op r.1 then .done ([r.1], false, r.2)\n    else (thread d sh cs r.2)', 'if false then .done ([r.1], false, r.2)\n    else (thread d sh cs r.2)', 'C73: a thread goes on after a failed insertion (undefined behaviour follows)')
mut('CC06', CC, 'thread', 'else (thread d sh cs r.2).bind', 'else (thread d sh cs p).bind', 'C73: a thread goes on with its maps as they were before the call')
mut('CC07', CC, 'moved', '(jobs.map (·.maps)).flatten', '(jobs.map (·.maps.drop 1)).flatten', 'C73: a map is given to a thread and also used by nobody knows whom')
mut('CC08', CC, 'Prog.step', 's.nextAfter, s.alloc.request.2', 's.next, s.alloc.request.2', 'C73: two threads are given the same memory')
mut('CC09', CC, 'Prog.step', '| some _ => some (k, { s with cells := upd s.cells a (some n) })', '| some _ => some (k, { s with cells := fun _ => some n })', 'C73: a write changes the nodes of others')
mut('CC10', CC, 'Call.Ok', '| .shared op => Op.shared op = true', '| .shared _ => True', 'C73: any call is allowed on shared maps (races)')
mut('CC11', CC, 'Call.specs', '((op.spec bor sh).1 :: (Call.specs bor sh cs l).1', '((op.spec bor l).1 :: (Call.specs bor sh cs l).1', 'C73: (specification) the answers about shared maps are taken from the own ones')
mut('CC12', CC, 'alone', 'let r ← Op.hrun bor sh op', 'let r ← Op.hrun bor p op', 'C73: (specification) alone, a thread would read other maps')

# C74: the answers of a lawful order stay the same, but more comparisons are made
mut('CO01', AO, 'searchKeysO', '| some .gt => searchKeysO bor q a (i + 1) n c.rest', '| some .gt =>\n      match c 1 q (bor k) with\n      | none => pure none\n      | some _ => searchKeysO bor q a (i + 1) n c.rest.rest', 'C74: two comparisons for each key passed over')
mut('CO02', AO, 'HMap.getKeyValueO', '| some (.found h, _) => do\n    let kv ← kvOf h\n    pure (some (some kv))', '| some (.found _, c) => do\n    let y ← m.searchO bor q c\n    match y with\n    | some (.found h, _) => do\n      let kv ← kvOf h\n      pure (some (some kv))\n    | some (.goDown _, _) => pure (some none)\n    | none => pure none', 'C74: get is contains_key followed by a second search')
mut('CO03', AO, 'HMerge.nextO', '| some .gt => do\n      let y ← b.2.next\n      pure ((y.1, ⟨a.2, y.2⟩), c.rest)', '| some .gt =>\n      match c 1 v.1 u.1 with\n      | none => HM.panic "a comparison of keys"\n      | some _ => do\n        let y ← b.2.next\n        pure ((y.1, ⟨a.2, y.2⟩), c.rest.rest)', 'C74: merging compares both ways')
mut('CO04', AO, 'HMap.rangeO', '| some c => rangeLoopO bor s e m.root.height m.root.node m.root.node false false false c', '| some c => do\n    let y ← rangeLoopO bor s e m.root.height m.root.node m.root.node false false false c\n    match y with\n    | none => pure none\n    | some (_, c) => rangeLoopO bor s e m.root.height m.root.node m.root.node false false false c', 'C74: range searches for its ends twice')
mut('CO05', AO, 'HMap.tryInsertO', 'let x ← m.tryEntryO k c\n  match x with\n  | (none, m) => pure (none, m)\n  | (some (none, c), m) => pure (some (none, c), m)', 'let w ← m.searchO id k c\n  let x ← m.tryEntryO k (w.elim c (·.2))\n  match x with\n  | (none, m) => pure (none, m)\n  | (some (none, c), m) => pure (some (none, c), m)', 'C74: try_insert searches before try_entry does')
mut('CO06', AO, 'HMap.appendO', '(m.length + o.length) c\n', '(m.length + o.length) (fun n => c (n + 1))\n', 'C74: append makes one comparison before it starts to merge')
mut('CO07', AO, 'HMap.splitOffO', 'splitLoopO bor q m.root.height m.root.node x.1.node c', 'splitLoopO bor q m.root.height m.root.node x.1.node (fun n => c (n + m.length))', 'C74: split_off compares with every key')
mut('CO08', AO, 'HMap.removeEntryO', 'let x ← m.searchO bor q c\n  match x with\n  | none => pure (none, m)\n  | some (.found h, _) => do\n    let (kv, m)', 'let x ← m.searchO bor q (fun n => c (n + m.length))\n  match x with\n  | none => pure (none, m)\n  | some (.found h, _) => do\n    let (kv, m)', 'C74: remove scans the whole map')

# C75
ML = 'Heap/MutLook.lean'
mut('ML01', ML, 'HRange.printed', '⟨r.front, r.back⟩', '⟨r.front, r.front⟩', 'C75: Debug of RangeMut copies the front twice')
mut('ML02', ML, 'HRange.printed', '(m.length + 1)', 'm.length', 'C75: (model) the printing loop is given too few turns')
mut('ML03', ML, 'HMap.valuesMutMethods', 'hint := m.iterMutMethods.hint (K := K) (V := V)', 'hint _ := (0, none)', 'C75: ValuesMut forgets to forward size_hint')
mut('ML04', ML, 'HMap.iterMutMethods', 'hint it := (it.length, some it.length)', 'hint it := (it.length - 1, some it.length)', 'C75: lower bound of size_hint one too small')
mut('ML05', ML, 'HMap.iterMutMethods', 'hint it := (it.length, some it.length)', 'hint _ := (m.length, some m.length)', 'C75: size_hint is the length of the map')
mut('ML06', ML, 'HMap.valuesMutMethods', 'step := m.iterMutMethods.step', "step e it := m.iterMutMethods.step (match e with | .front => .back | .back => .front) it", 'C75: ValuesMut::next takes from the back')
mut('ML07', ML, 'HMap.iterMutMethods', 'step := HIter.stepH m.root.height', 'step e it := do\n    let x ← HRange.stepH m.root.height e it.range\n    pure (x.1, ⟨x.2, it.length⟩)', 'C75: IterMut does not count down')
mut('ML08', ML, 'HMap.rangeMutLook', 'let r ← m.range bor lo hi', 'let r ← m.range bor lo .unbounded', 'C75: range_mut ignores its upper bound')
mut('ML09', ML, 'HMap.rangeMutMethods', 'let l ← r.printed m\n    pure (l, none)', 'let x ← HRange.stepH m.root.height .front r\n    let l ← x.2.printed m\n    pure (l, none)', 'C75: Debug of RangeMut leaves out the first entry')
mut('ML10', ML, 'MutMethods.run', '| some h => updVal h f', '| some h => updVal h (fun v => f (f v))', 'C75: (model) a write happens twice')

# C76
EU = 'Heap/EntryUse.lean'
mut('EU01', EU, 'HEntry.look', 'let old ← setVal h v\n      pure (.value (some old), false)', 'let _ ← setVal h v\n      pure (.value (some v), false)', 'C76: OccupiedEntry::insert returns the new value')
mut('EU02', EU, 'HMap.entryFill', '| .vacant _ _, none => pure (.unwound, m)', '| .vacant _ _, none => pure (.unwound, { m with length := m.length + 1 })', 'C76: the length is counted up before the closure runs')
mut('EU03', EU, 'HMap.entryFill', '    let kv ← kvOf h\n    updVal h f\n    pure (.value (some kv.2), m)\n  | .vacant _ _, none', '    let kv ← kvOf h\n    pure (.value (some kv.2), m)\n  | .vacant _ _, none', 'C76: or_try_insert gives a reference to a copy')
mut('EU04', EU, 'HMap.entryEnd', 'let x ← m.removeKv h\n      pure (.value (some x.1.2), x.2)', 'let x ← m.removeKv h\n      pure (.value (some x.1.2), m)', 'C76: remove does not store the new root and length')
mut('EU05', EU, 'HEntry.look', '| .occupied h => do\n      updVal h f\n      pure (if panics then (.unwound, true) else (.done, false))', '| .occupied h => do\n      if panics then pure (.unwound, true) else do\n        updVal h f\n        pure (.done, false)', 'C76: and_modify works on a copy that is lost when the closure panics')
mut('EU06', EU, 'HEntry.debug', 'let k ← entryKey e\n  let v ← e.get\n', 'let k ← entryKey e\n  let v ← pure (f := HM K V) (none : Option V)\n', 'C76: Debug of an occupied entry leaves out the value')
mut('EU07', EU, 'HMap.entryEnd', '| .vacant k _ => pure (.ownKey (some k), m)', '| .vacant k h => do\n      let x ← m.removeKv h\n      pure (.ownKey (some k), x.2)', 'C76: into_key removes something')
mut('EU08', EU, 'HMap.entryFill', '| some h => do\n      let kv ← kvOf h\n      updVal h f\n      pure (.value (some kv.2), x.2)', '| some _ => do\n      let kv ← kvOf h\n      updVal h f\n      pure (.value (some kv.2), x.2)', 'C76: the reference is to the place before the split')
mut('EU09', EU, 'HMap.entryEnd', '| some h => do\n        updVal h f\n        pure (.done, x.2)', '| some _ => pure (.done, x.2)', 'C76: VacantEntry::try_insert gives a reference to something else')
mut('EU10', EU, 'HMap.entrySteps', 'if o.2 then pure ([o.1], m)', 'if o.2 then do\n      let x ← m.entryEnd e fin\n      pure ([o.1, x.1], x.2)', 'C76: (model) the entry is used again after a panic')
mut('EU11', EU, 'HEntry.look', '| .vacant _ _ => pure (.done, false)\n  | .write f', '| .vacant _ _ => pure (if panics then (.unwound, true) else (.done, false))\n  | .write f', 'C76: and_modify calls the closure on a vacant entry')

PN = 'Heap/Panics.lean'
mut('PN01', PN, 'HMap.tryInsertD', '| 0 => pure (.drop, none, 0, e.2)', '| 0 => do\n      let _ ← setVal h v\n      pure (.drop, none, 0, e.2)', 'C77: try_insert writes the value before the key is dropped')
mut('PN02', PN, 'HMap.tryInsertD', '| 0 => pure (.drop, none, 0, e.2)', '| 0 => pure (.drop, none, 0, { e.2 with length := e.2.length + 1 })', 'C77: the length is counted up before the destructor runs')
mut('PN03', PN, 'HMap.extendD', '| some _, 0 => pure (.drop, x.2.2.2)', '| some _, 0 => pure (.drop, m)', 'C77: (equivalent unless the root moved) extend puts the old map back')
mut('PN04', PN, 'HMap.extendD', 'if bad then .iter else .done, m)', 'if bad then .iter else .done, if bad then HMap.new else m)', 'C77: extend takes the map and loses it when the iterator panics')
mut('PN05', PN, 'HMap.fromIterD', 'let l ← x.2.drop\n    pure (why, none, l)', 'pure (why, none, [])', 'C77: collect forgets the unfinished map')
mut('PN06', PN, 'HMerge.nextD', '| 0 => pure (none, x.1.toList, ⟨x.2, b.2⟩)', '| 0 => do\n        let y ← b.2.next\n        pure (none, x.1.toList, ⟨x.2, y.2⟩)', 'C77: the pair of the right map is lost when the destructor of the left one panics')
mut('PN07', PN, 'HMerge.nextD', '| 0 => pure (none, x.1.toList, ⟨x.2, b.2⟩)', '| 0 => pure (none, x.1.toList, ⟨a.2, b.2⟩)', 'C77: the pair whose destructor panicked is dropped again')
mut('PN08', PN, 'HMap.fromSortedIterD', 'let r ← x.2.iter.right.drop\n    pure (x.1, ⟨x.2.root, x.2.length⟩, x.2.dropped ++ l ++ r)', 'pure (x.1, ⟨x.2.root, x.2.length⟩, x.2.dropped ++ l)', 'C77: unwinding does not drop what is left of the right map')
mut('PN09', PN, 'HMap.appendD', '| w => pure (w, n.2.1, HMap.new, n.2.2)', '| w => pure (w, n.2.1, o, n.2.2)', 'C77: other still has the old root after append unwound')
mut('PN10', PN, 'HMap.appendD', '| w => pure (w, n.2.1, HMap.new, n.2.2)', '| w => pure (w, m, HMap.new, n.2.2)', 'C77: self gets the old root back after append unwound')
mut('PN11', PN, 'buildStepD', 's.length + 1, c, s.dropped ++ x.2.1⟩', 's.length, c, s.dropped ++ x.2.1⟩', 'C77: append sets the length only at the end')
mut('PN12', PN, 'HMap.tryInsertD', 'let old ← setVal h v\n      pure (.done, some old, calm, e.2)', 'let old ← setVal h v\n      pure (.done, some old, calm + 1, e.2)', 'C77: (model) the destructor of the key is not counted')
mut('PN13', PN, 'HMap.extendD', '| why => pure (why, x.2.2.2)', '| why => HMap.extendD bad rest calm x.2.2.2', 'C77: extend goes on after a panic')

SA = 'Heap/SetAlg.lean'
mut('SA01', SA, 'HMap.difference', 'if o.length / TIPPING < s.length then do\n    let i ← s.setIter\n    let j', 'if s.length / TIPPING < o.length then do\n    let i ← s.setIter\n    let j', 'C78: (strategy only; still right) difference compares the sizes the wrong way round')
mut('SA02', SA, 'hdifferenceStitch', '        let j\' ← p.2.next\n        hdifferenceStitch fuel x\' n.2 j\'.2\n', '        hdifferenceStitch fuel x\' n.2 p.2\n', 'C78: (still right with a lawful order, but the fuel is not enough) the other iterator is not advanced on equality')
mut('SA03', SA, 'hdifferenceSearch', 'if c then hdifferenceSearch o fuel n.2 else pure (some x, .search n.2 o)', 'if c then pure (some x, .search n.2 o) else hdifferenceSearch o fuel n.2', 'C78: difference by search hands out the common elements')
mut('SA04', SA, 'HDifference.sizeHint', '| .stitch i j => (i.len - j.len, some i.len)', '| .stitch i j => (i.len, some (i.len + j.len))', 'C78: size hint of difference too big')
mut('SA05', SA, 'HDifference.clone', 'def HDifference.clone : HDifference T → HDifference T\n  | .stitch i j => .stitch i.clone j.clone', 'def HDifference.clone : HDifference T → HDifference T\n  | .stitch i j => .stitch i.clone ⟨j.iter.clone, none⟩', 'C78: clone of a difference forgets the peeked item')
mut('SA06', SA, 'hsymDiffLoop', '    match cmpOpt p.1 q.1 .gt .lt with\n    | .lt', '    match cmpOpt p.1 q.1 .lt .gt with\n    | .lt', 'C78: symmetric difference stops when one set is used up')
mut('SA07', SA, 'HTwoIters.unionNext', "    let n' ← q.2.next\n    let n ← p.2.next\n    pure (n.1, ⟨n.2, n'.2⟩)", "    let n ← p.2.next\n    pure (n.1, ⟨n.2, q.2⟩)", 'C78: union hands out common elements twice')
mut('SA08', SA, 'HTwoIters.unionNext', "    let n' ← q.2.next\n    let n ← p.2.next\n    pure (n.1, ⟨n.2, n'.2⟩)", "    let n' ← q.2.next\n    let n ← p.2.next\n    pure (n'.1, ⟨n.2, n'.2⟩)", 'C78: union hands out the object of the other set')
mut('SA09', SA, 'HTwoIters.unionHint', 'max t.a.len t.b.len', 't.a.len + t.b.len', 'C78: lower bound of union too big')
mut('SA10', SA, 'HMap.intersection', 'if s.length ≤ o.length then', 'if o.length ≤ s.length then', 'C78: intersection hands out the objects of the larger set')
mut('SA11', SA, 'hintersectionStitch', '| .eq => pure (some x, .stitch i j)', '| .eq => pure (some y, .stitch i j)', 'C78: intersection hands out the object of the larger set')
mut('SA12', SA, 'HIntersection.next', "| none => pure (none, .stitch n.2 n'.2)", "| none => pure (n.1, .stitch n.2 n'.2)", 'C78: intersection goes on after the other set is used up')
mut('SA13', SA, 'hintersectionSearch', 'if c then pure (some x, .search n.2 o) else', 'if c then pure (some x, .search i o) else', 'C78: intersection by search repeats its item')
mut('SA14', SA, 'HMap.isDisjoint', 'r.1.isNone', 'r.1.isSome', 'C78: is_disjoint answers the contrary')
mut('SA15', SA, 'hsubsetStitch', '| .gt => pure false', '| .gt => do\n          let n ← x.next\n          hsubsetStitch fuel n.1 b n.2 y', 'C78: is_subset skips elements that are missing')
mut('SA16', SA, 'HMap.isSubset', 'if o.length < s.length then pure false', 'if o.length ≤ s.length then pure false', 'C78: a set is not a subset of itself')
mut('SA17', SA, 'HMap.isSuperset', 'o.isSubset s', 's.isSubset o', 'C78: is_superset has its arguments swapped')
mut('SA18', SA, 'HSetIter.debug', 'i.clone.drain (i.len + 1)', 'do\n  let n ← i.next\n  n.2.clone.drain (n.2.len + 1)', 'C78: Debug of an iterator leaves out the next element')
mut('SA19', SA, 'HMap.setDebug', 'i.drain (m.length + 1)', 'let n ← i.next\n  n.2.drain (m.length + 1)', 'C78: Debug of a set leaves out the first element')
mut('SA20', SA, 'HPeekable.debug', 'pure (.peekable l p.peeked)', 'pure (.peekable l none)', 'C78: Debug of Peekable leaves out the peeked item')
mut('SA21', SA, 'AlgAct.hrun', 'pure (.item r.1, p.set i r.2)', 'pure (.item r.1, p)', 'C78: (model) the iterator does not move')
mut('SA22', SA, 'hcollectSet', '| none => pure (false, p.2)', '| none => hcollectSet next fk fuel r.2 p.2', 'C78: collect goes on after a failed insertion')
mut('SA23', SA, 'hcollectEnd', '  else do\n    let _ ← x.2.drop\n    pure none', '  else pure none', 'C78: the unfinished set is not dropped')
mut('SA24', SA, 'HMap.operator', '    let d ← s.intersection o\n    let x', '    let d ← s.intersection s\n    let x', 'C78: & intersects the set with itself')
mut('SA25', SA, 'HMap.operator', 'hcollectSet HTwoIters.unionNext', 'hcollectSet HTwoIters.symDiffNext', 'C78: | is the symmetric difference')
mut('SA26', SA, 'HSetIter.next', 'i.it.step i.set.root.height .front', 'i.it.step i.set.root.height .back', 'C78: the set iterator goes backwards')
mut('SA27', SA, 'hcollectSet', 'm.tryInsert (fk x) ()', 'm.tryInsert x ()', 'C78: collect stores the references, not the clones')
AV = 'BTree/AlgViews.lean'
mut('AV01', AV, 'Peekable.debug', '.ok (.peekable l p.peeked)', '.ok (.peekable l none)', 'C57: Debug of Peekable leaves out the peeked item')

HC = 'Heap/Compare.lean'
mut('CM01', HC, 'hzipAll', 'fuel a.2 b.2 else pure false', 'fuel a.2 b.2 else pure true', 'C79: == does not see a difference')
mut('CM02', HC, 'HMap.eq', 'if m.length = o.length then do', 'if m.length ≤ o.length then do', 'C79: a map equals a longer one')
mut('CM03', HC, 'hzipAll', "      let b ← j.step h' .front\n      match b.1 with\n      | none => pure true", "      let b ← j.step h' .back\n      match b.1 with\n      | none => pure true", 'C79: == goes through the other map backwards')
mut('CM04', HC, 'HMap.eq', 'eqK a.1 b.1 && eqV a.2 b.2', 'eqK a.1 b.1 || eqV a.2 b.2', 'C79: == takes entries as equal that share the key')
mut('CM05', HC, 'hlexPartial', '        | some .eq => hlexPartial cmp h h\' fuel a.2 b.2', '        | none => hlexPartial cmp h h\' fuel a.2 b.2\n        | some .eq => hlexPartial cmp h h\' fuel a.2 b.2', 'C79: incomparable entries are skipped')
mut('CM06', HC, 'hlexPartial', 'pure (some (if b.1.isNone then .eq else .lt))', 'pure (some .eq)', 'C79: a beginning of a map compares as equal')
mut('CM07', HC, 'hlexPartial', '      | none => pure (some .gt)', '      | none => pure (some .lt)', 'C79: a longer map compares as less')
mut('CM08', HC, 'HMap.partialCmp', 'hlexPartial (BTree.pairPartial cmpK cmpV) m.root.height o.root.height (m.length + 1) i j', 'hlexPartial (BTree.pairPartial cmpK cmpV) o.root.height m.root.height (o.length + 1) j i', 'C79: partial_cmp compares the other way round')
mut('CM09', HC, 'HMap.cmp', '(cmpK a.1 b.1).then (cmpV a.2 b.2)', '(cmpV a.2 b.2).then (cmpK a.1 b.1)', 'C79: cmp compares the values first')
mut('CM10', HC, 'hlexCmp', '        | c => pure c\n\n/-- src/btree/map.rs:1843', '        | c => pure c.swap\n\n/-- src/btree/map.rs:1843', 'C79: cmp answers the wrong way round')
mut('CM11', HC, 'hlexCmp', 'pure (if b.1.isNone then .eq else .lt)', 'pure .lt', 'C79: equal maps compare as less')
mut('CM12', HC, 'hfeed', '| some x => hfeed feed h fuel a.2 (feed st x)', '| some x => hfeed feed h fuel a.2 (if fuel = 0 then st else feed st x)', 'C79: (the last one cannot be left out: the fuel ends after it) an entry is not hashed')
mut('CM13', HC, 'hfeed', 'let a ← i.step h .front\n    match a.1 with\n    | none => pure st', 'let a ← i.step h .back\n    match a.1 with\n    | none => pure st', 'C79: hash and Debug go backwards')
mut('CM14', HC, 'HMap.hash', 'hfeed feed m.root.height (m.length + 1) i st', 'hfeed feed m.root.height m.length i st', 'C79: hash runs out of fuel (of the model: a wrong bound)')
mut('CM15', HC, 'HMap.index', '| some kv => pure kv.2\n  | none => HM.panic', '| some _ => HM.panic "found"\n  | none => HM.panic', 'C79: indexing panics always')
mut('CM16', HC, 'HMap.debug', 'fun l x => l ++ [x]', 'fun l x => [x] ++ l', 'C79: Debug shows the entries backwards')
mut('CM17', HC, 'HMap.eq', '    let j ← o.iter\n    hzipAll', '    let j ← m.iter\n    hzipAll', 'C79: == compares the map with itself')
BI = 'BTree/Iter.lean'
mut('CM18', BI, 'pairPartial', '  | some .eq => cmpV a.2 b.2\n  | c => c', '  | some .lt => some .lt\n  | some .gt => some .gt\n  | _ => cmpV a.2 b.2', 'C23: incomparable keys are decided by the values')
mut('CM19', BI, 'lexPartial', '  | [], _ :: _ => some .lt', '  | [], _ :: _ => some .gt', 'C23: partial_cmp: a beginning compares as greater')

VR = 'Vec/Raw.lean'
VF = 'Vec/Fallible.lean'
VCL = 'Vec/Calls.lean'
mut('VP01', VR, 'stdCut', 'else dropFrom e n (s.v.len - n) { s with v := { s.v with len := n } }', 'else dropFrom e n (s.v.len - n) s', 'C81: the tail is dropped but the length is not cut')
mut('VP02', VR, 'stdCut', 'else dropFrom e n (s.v.len - n) { s with v := { s.v with len := n } }', 'else dropFrom e n (s.v.len - n - 1) { s with v := { s.v with len := n } }', 'C81: the last element is leaked by clear / resize_with')
mut('VP03', VR, 'dropFrom', '| (.panic m, s) =>\n      match dropFrom e (i + 1) n s with\n      | (.ub, s) => (.ub, s)\n      | (_, s) => (.panic m, s)', '| (.panic m, s) => (.panic m, s)', 'C81: a panicking destructor leaks the elements after it')
mut('VP04', VR, 'stdPop', '{ s with v := { s.v with len := s.v.len - 1, mem := fun j => if j = s.v.len - 1 then none else s.v.mem j } }', 's', 'C81: pop hands out the element and keeps it')
mut('VP05', VR, 'stdAssign', 'if s.v.len ≤ i then (.panic "index out of bounds", (dropVal e x s).2)', 'if s.v.len < i then (.panic "index out of bounds", (dropVal e x s).2)', 'C81: the bounds check lets the length pass')
mut('VP06', VR, 'stdAssign', '| (.ub, s) => (.ub, s)\n    | (r, s) => (r, { s with v := { s.v with mem := fun j => if j = i then some x else s.v.mem j } })', '| (.ub, s) => (.ub, s)\n    | (.panic m, s) => (.panic m, s)\n    | (r, s) => (r, { s with v := { s.v with mem := fun j => if j = i then some x else s.v.mem j } })', 'C81: after a panic of the old element the slot stays empty')
mut('VP07', VR, 'stdSwap', 'if k = j then s.v.mem i else s.v.mem k', 's.v.mem k', 'C81: swap copies instead of exchanging')
mut('VP08', VR, 'stdResizeWith', 'else stdCut e newLen', 'else stdCut e (newLen - 1)', 'C36: resize_with cuts one too many')
mut('VP09', VR, 'IntoIter.next', 'start := it.start + 1 })', 'start := it.start })', 'C81: into_iter hands out the first element again')
mut('VP10', VR, 'IntoIter.nextBack', 'match it.buf.mem (it.stop - 1) with', 'match it.buf.mem it.start with', 'C81: next_back hands out the front')
mut('VP11', VR, 'IntoIter.drop', 'dropFrom e it.start (it.stop - it.start) ⟨it.buf, w⟩', 'dropFrom e 0 it.stop ⟨it.buf, w⟩', 'C81: dropping a half-used into_iter drops what was handed out')
mut('VP12', VR, 'IntoIter.next', 'def IntoIter.next (it : IntoIter T) : Exec (Option T × IntoIter T) :=\n  if it.start = it.stop then', 'def IntoIter.next (it : IntoIter T) : Exec (Option T × IntoIter T) :=\n  if it.start + 1 = it.stop then', 'C81: into_iter stops before the last element')
mut('VP13', VF, 'intoIter', '⟨v, 0, v.len⟩', '⟨v, 0, v.cap⟩', 'C81: into_iter takes the capacity for the length')
mut('VP14', VF, 'tryFromIteratorPanic', '| (.panic m, s) =>\n    match dropVec e s with\n    | (.ub, s) => (.ub, s.w)\n    | (_, s) => (.panic m, s.w)\n  | (.ub, s) => (.ub, s.w)\n\n/-- src/vec.rs:194-202', '| (.panic m, s) => (.panic m, s.w)\n  | (.ub, s) => (.ub, s.w)\n\n/-- src/vec.rs:194-202', 'C81: a panicking iterator leaks the items collected')
mut('VP15', VF, 'withDrop', '    | (.panic m, s) => (.panic m, s)\n  | (.panic m, s) => (.panic m, (dropVal e val s).2)', '    | (.panic m, s) => (.panic m, s)\n  | (.panic m, s) => (.panic m, s)', 'C81: the value is leaked when truncate panics (only in the case C54 is about)')
mut('VP16', VF, 'tryExtendWith', '| (.panic m, s) => (.panic m, (dropVal e val s).2)\n  | (.ok (.error er), s) =>\n    match dropVal', '| (.panic m, s) => (.panic m, s)\n  | (.ok (.error er), s) =>\n    match dropVal', 'C39/C81: the value is leaked when a clone panics')
mut('VP17', VF, 'truncateLoop', 'dropSlot e (localLen - 1)\n    setLen (localLen - 1)', 'setLen (localLen - 1)\n    dropSlot e (localLen - 1)', 'C54/C81_exact: the defect is repaired (so the claim that it is there is false)')
mut('VP18', VCL, 'Call.run', '| some x => pure [x]\n    | none => pure []', '| some _ => pure []\n    | none => pure []', 'C81: pop loses the element')
mut('VP19', VR, 'stdInsert', 'if s.v.len < index then fun s => (.panic "insertion index should be <= len", (dropVal e x s).2)', 'if s.v.len < index then fun s => (.panic "insertion index should be <= len", s)', 'C81: the element is leaked when the index is out of bounds')

# C82: cloning shared maps
mut('CP01', HB, 'cloneLeafStep', 'pushLeaf out kv\n      pure (.inl (e.idx, s.2 + 1))', 'pushLeaf src kv\n      pure (.inl (e.idx, s.2 + 1))', 'C82/C13: the copy of a pair goes to the original leaf')
mut('CP02', HB, 'cloneInternalStep', 'pushInternal out kv sub.root', 'pushInternal src kv sub.root', 'C82/C13: the copy of a subtree is hung into the original')
mut('CP03', HB, 'cloneSubtree', '      | some er => do\n        let _ ← HMap.drop ⟨r, x.2⟩\n        pure (.error er)\n  | h + 1, a', '      | some er => do\n        let _ ← HMap.drop ⟨⟨0, a⟩, x.2⟩\n        pure (.error er)\n  | h + 1, a', 'C82: a failed try_clone frees the leaf of the original')
mut('CP04', HB, 'HMap.tryClone', 'if m.length = 0 then pure (.ok HMap.new)', 'if m.length ≤ 1 then pure (.ok m)', 'C82: a map with one element is not copied but shared')
mut('CP05', HB, 'cloneLeafStep', '    | .ok kv => do\n      pushLeaf out kv', '    | .ok kv => do\n      let _ ← setKey ⟨0, src, s.1⟩ kv.1\n      pushLeaf out kv' , 'C82_spares: the key of the original is overwritten by the copy (which may differ)')
mut('CP06', 'Heap/Conc.lean', 'Op.copies', '| .clone .. | .tryClone .. => true', '| .clone .. | .tryClone .. | .splitOff .. => true', 'C82/C73: split_off, which takes &mut self, is allowed on shared maps')
mut('CP07', 'Heap/Conc.lean', 'thread', '(d sh op).bind fun r => (thread d sh cs (p ++ r.2.drop sh.length))', '(d sh op).bind fun r => (thread d sh cs (p ++ r.2))', 'C82: the thread takes the shared maps for its own, too')
mut('CP08', HB, 'cloneInternalStep', '      | .error er => pure (.inr (some er, s.2))\n      | .ok sub => do', '      | .error er => do\n        let _ ← HMap.drop ⟨⟨src.height - 1, c.node⟩, 0⟩\n        pure (.inr (some er, s.2))\n      | .ok sub => do', 'C82: a child of the original is freed when its copy fails')

# The allocator chooses the address of a new node (Heap/Mem.lean).
HMEM = 'Heap/Mem.lean'
mut('PL01', HMEM, 'Heap.spot', 's.place 0 ≠ SHARED ∧ (s.cells (s.place 0)).isNone = true', 's.place 0 ≠ SHARED', 'C53, C51: a new node is put where another one is')
mut('PL02', HMEM, 'Heap.spot', 's.place 0 ≠ SHARED ∧ (s.cells (s.place 0)).isNone = true', '(s.cells (s.place 0)).isNone = true', 'C53: a new node is put where the shared root is')
mut('PL03', HMEM, 'Heap.nextAfter', 'max s.next (s.spot + 1)', 's.next', 'C53: a fresh address is handed out twice')
mut('PL04', HMEM, 'Heap.nextAfter', 'max s.next (s.spot + 1)', 's.spot + 1', 'C53: after an address was used again, later ones count as fresh')

# C83: going on after failed insertions (the last five edit the careful program, to see that each of its precautions is needed).
BG = 'BTree/GoOn.lean'
mut('GO01', HB, 'HMap.tryClone', 'else cloneSubtree ck cv m.root.height m.root.node', 'else do\n    let r ← cloneSubtree ck cv m.root.height m.root.node\n    match r with\n    | .ok c => pure (.ok ⟨c.root, m.length⟩)\n    | .error er => pure (.error er)', 'C83_repair: the copy takes over the length of a map hit by a failed insertion (the same for sound maps)')
mut('GO02', 'Heap/Map.lean', 'HMap.vacantInsert', '| .oom => pure (none, { m with length := length })', '| .oom => pure (none, { m with length := m.length - 1 })', 'C83: len underestimates after a failed insertion')
mut('GO03', 'BTree/Bulk.lean', 'Map.tryClone', '| .ok (t, len) => .ok (.ok ⟨m.height, t, false, len⟩, a)', '| .ok (t, _) => .ok (.ok ⟨m.height, t, false, m.len⟩, a)', 'C83_repair: the same in the level-1 model')
mut('GO04', BG, 'Op.trusts', '  | .clear i => bad.contains i\n', '', 'C83_safe: clear is called on a harmed map')
mut('GO05', BG, 'Op.trusts', '  | .views i _ => bad.contains i\n', '', 'C83_safe: iterators are opened over a harmed map')
mut('GO06', BG, 'Op.inserting', '  | .replace i k v => some (i, k, v)\n', '', 'C83_safe: a failed replace does not count as harm')
mut('GO07', BG, 'Op.mark', '| .splitOff i _ => if i ∈ bad then lens.length :: bad else bad', '| .splitOff _ _ => bad', 'C83_safe: the part split off from a harmed map counts as sound')
mut('GO08', BG, 'Op.trusts', '  | .append i j => bad.contains i || bad.contains j\n', '  | .append i _ => bad.contains i\n', 'C83_safe: a harmed map is appended to a sound one')
mut('LO01', M, 'internalInsert', 'else .ok (.oom t ⟨kv, some (loc.up.length, edge)⟩, a)', 'else .ok (.oom t ⟨kv, none⟩, a)', 'C84: the half left without an owner is not accounted for')
mut('LO02', M, 'leafInsert', 'else .ok (.oom t ⟨kv, none⟩, a)', 'else .ok (.oom { t with kvs := t.kvs.dropLast } ⟨kv, none⟩, a)', 'C84: a refused leaf insertion loses the last entry of the leaf as well')
mut('LO03', M, 'Map.vacantInsert', 'else .ok (.error .allocError, { m with root := l, length := length }, a)', 'else .ok (.error .allocError, { m with root := r, length := length }, a)', 'C84: the map keeps the right half of its root and loses the left one')
mut('LO04', M, 'internalInsert', 'some (loc.up.length, edge)', 'some (loc.up.length + 1, edge)', 'C84: the tree without an owner is a level higher than it is')
mut('LO05', HM_, 'insertStep', '| none => pure (.inr (root, false))', '| none => pure (.inr (c.right, false))', 'C84: in memory the map keeps the right half of its root')
mut('LO06', HN, 'insertInternal', '    let mid ← newKv h.ref B\n    let r ← splitInternal mid', '    let mid ← newKv h.ref B\n    let _ ← newLeaf (K := K) (V := V)\n    let r ← splitInternal mid', 'C84: a node is allocated that belongs to no map and is not part of what is lost')
mut('LO08', M, 'Map.vacantGone', 'some ⟨mid, some (m.height, r)⟩', 'some ⟨mid, none⟩', 'C84: nothing but the middle pair is said to be lost')

# C85: comparisons of the operations on two sets.
AC = 'BTree/AlgCost.lean'
mut('CN01', AU, 'TwoIters.unionNextP', '| some (.eq, cmps) => do\n    let n\' ← q.2.next\n    let n ← p.2.next\n    .ok (.done ((n.1, ⟨n.2, n\'.2⟩), cmps))', '| some (.eq, cmps) => do\n    let n ← p.2.next\n    .ok (.done ((n.1, ⟨n.2, q.2⟩), cmps))', 'C71/C85: union keeps the equal element of the other set and yields it again')
mut('CN02', AU, 'differenceStitchP', '| some (.gt, cmps) => do\n      let j\' ← p.2.next\n      differenceStitchP fuel x i j\'.2 cmps', '| some (.gt, 0) => .ok (.unwound (.stitch i p.2) .cmp)\n    | some (.gt, cmps + 1) => do\n      let j\' ← p.2.next\n      differenceStitchP fuel x i j\'.2 cmps', 'C85: the difference compares twice when the element of the other set is smaller')
mut('CN03', AC, 'subsetStitchP', '| .lt => do\n            let n ← y.next\n            subsetStitchP fuel a n.1 x n.2 cmps', '| .lt => do\n            let n ← y.next\n            subsetStitchP fuel a n.1 x n.2 (cmps - 1)', 'C85: is_subset compares twice when the element of the other set is smaller')
mut('CN04', AC, 'BSet.isSubsetP', 'if o.len < s.len then .ok (some (false, cmps))\n  else if', 'if', 'C85: is_subset does not look at the lengths first')
mut('CN05', AC, 'BSet.isSubsetP', 'else if o.len / TIPPING < s.len then do', 'else if s.len < 1 then do', 'C85: is_subset always searches')
mut('CN06', AC, 'subsetSearchP', '| some (false, cmps) => .ok (some (false, cmps))', '| some (false, cmps) => subsetSearchP o fuel n.2 cmps', 'C85: is_subset goes on after an element was not found (and says yes)')
mut('CN07', AC, 'AlgView.collectP', 'match ← set.tryInsertP (fk x) a cmps with', 'match ← set.tryInsertP (fk x) a (cmps - 1) with', 'C85: collect makes a comparison of its own')
mut('CN08', S, 'BSet.difference', 'if o.len / TIPPING < s.len then do\n    let i ← s.iter\n    let j ← o.iter\n    .ok (.stitch i j.peekable)', 'if o.len / (TIPPING * TIPPING) < s.len then do\n    let i ← s.iter\n    let j ← o.iter\n    .ok (.stitch i j.peekable)', 'C85: the difference walks a set that is 256 times as large')
mut('CN09', S, 'BSet.intersection', 'if s.len ≤ o.len then', 'if o.len ≤ s.len then', 'C85: the intersection walks the larger set and searches in the smaller one')
mut('CN10', AU, 'differenceSearchP', 'match ← o.containsP id x cmps with\n      | none => .ok (.unwound (.search n.2 o) .cmp)\n      | some (true, cmps) => differenceSearchP', 'match ← o.containsP id x (cmps / 2) with\n      | none => .ok (.unwound (.search n.2 o) .cmp)\n      | some (true, cmps) => differenceSearchP', 'C85: the difference searches with half of the comparisons')
mut('CN11', AU, 'intersectionStitchP', '| some (.eq, cmps) => .ok (.done ((some x, .stitch i j), cmps))', '| some (.eq, cmps) => .ok (.done ((some x, .stitch i j), cmps - 1))', 'C85: the intersection compares equal elements twice')
mut('CN12', AC, 'BSet.isDisjointP', '.ok (some (x.isNone, cmps))', '.ok (some (x.isSome, cmps))', 'C85: is_disjoint answers the opposite')

# C86, C87: programs that use the whole API in turns.
WH = 'Heap/Whole.lean'
WS = 'Heap/WholeSets.lean'
mut('WH01', WH, 'HMap.rangeMutCaught', '| none => pure .panicked', '| none => pure (.looked [])', 'C86: range_mut with a bad range does not panic')
mut('WH02', WH, 'HMap.rangeMutCaught', 'm.range bor lo hi', 'm.range bor lo .unbounded', 'C86: range_mut ignores its upper bound')
mut('WH03', WH, 'Act.hrun', "let r ← m.entryUse k as fin\n      pure (.used r.1, p.set i r.2)", "let r ← m.entryUse k as fin\n      pure (.used r.1, p)", 'C86: the map is not updated after an entry has been used')
mut('WH04', WH, 'Act.hrun', 'let xs ← m.valuesMutLook as', 'let xs ← m.iterMutLook as', 'C86: values_mut hands out keys, too')
mut('WH05', WH, 'Act.spoils', '| .op o, .out y => Op.spoils o y', '| .op _, .out _ => false', 'C86: the program goes on after a failed insertion, and drops the map')
mut('WH06', WH, 'Act.spoils', '  | .entry .., .used xs => xs.any fun y => match y with | .failed => true | _ => false\n', '', 'C86: the program goes on after an entry that failed')
mut('WH07', WH, 'Act.hprog', 'let rs ← Act.hprog f bor as r.2\n', 'let rs ← Act.hprog f bor as p\n', 'C86: (model) the next step uses the maps as they were before')
mut('WH08', EU, 'HMap.entryUse', '| some e => x.2.entrySteps e fin as', '| some e => m.entrySteps e fin as', 'C86/C76: the entry is used with the map as it was before its root was allocated')
mut('WH09', EU, 'HMap.entryFill', '| .vacant _ _, none => pure (.unwound, m)', '| .vacant k h, none => do\n    let x ← m.removeKv h\n    pure (.unwound, x.2)', 'C86/C76: a panic of the closure removes an element')
mut('WH10', 'Heap/Compare.lean', 'HMap.index', '| none => HM.panic "no entry found for key"', '| none => HM.ub', 'C86/C79: indexing with a missing key is undefined')
mut('WS01', WS, 'SetAct.hrun', '| some m\' => pure (.made, p ++ [m\'])', '| some m\' => pure (.made, p.set i m\')', 'C87: the result of an operator replaces its left operand')
mut('WS02', WS, 'SetAct.hrun', '| some m\' => pure (.made, p ++ [m\'])', '| some _ => pure (.made, p)', 'C87: the result of an operator is lost')
mut('WS03', WS, 'SetAct.hrun', 'let r ← m.operator n fk k', 'let r ← n.operator m fk k', 'C87: the operands are swapped')
mut('WS04', WS, 'SetAct.hrun', '| none => pure (.panicked, p)', '| none => pure (.made, p ++ [HMap.new])', 'C87: an operator without memory gives the empty set')
mut('WS05', WS, 'SetAct.spoils', '| .act a, .ans x => Act.spoils a x', '| .act _, .ans _ => false', 'C87: the program goes on after a failed insertion')
mut('WS06', SA, 'HMap.operator', '    let d ← s.difference o\n    let x ← hcollectSet', '    let d ← o.difference s\n    let x ← hcollectSet', 'C87/C78: - subtracts the left set from the right one')
mut('WS07', SA, 'SetAsk.hrun', '| .superset i j =>\n    match p[i]?, p[j]? with\n    | some m, some n => do\n      let b ← m.isSuperset n', '| .superset i j =>\n    match p[i]?, p[j]? with\n    | some m, some n => do\n      let b ← m.isSubset n', 'C87: is_superset is is_subset')
mut('WS08', SA, 'hcollectEnd', 'if x.1 then pure (some x.2)', 'if x.1 then pure (some { x.2 with length := x.2.length + 1 })', 'C87/C78: the set an operator makes has a wrong length')

# C88: threads that use the whole API.
TW = 'Heap/ConcWhole.lean'
TS = 'SpecThreads.lean'
mut('TW01', TW, 'Api.thread', 'if L.spoils a r.1 then .done ([r.1], false, r.2)\n    else (L.thread', 'if false then .done ([r.1], false, r.2)\n    else (L.thread', 'C88: a thread goes on after a failed insertion')
mut('TW02', TW, 'Api.thread', '(d (sh ++ p) a).bind fun r => (L.thread d sh ts p).bind', '(d (p ++ sh) a).bind fun r => (L.thread d sh ts p).bind', 'C88: what is looked at is numbered wrongly')
mut('TW03', TW, 'Api.thread', '(L.thread d sh ts (p ++ r.2.drop (sh ++ p).length))', '(L.thread d sh ts (p ++ r.2.drop sh.length))', 'C88: after a clone the thread has its own maps twice')
mut('TW04', TW, 'Api.thread', '(L.thread d sh ts (p ++ r.2.drop (sh ++ p).length))', '(L.thread d sh ts p)', 'C88: the clone is lost')
mut('TW05', TW, 'Api.thread', 'else (L.thread d sh ts r.2).bind', 'else (L.thread d sh ts p).bind', 'C88: a thread goes on with its maps as they were')
mut('TW06', TS, 'Op.looks', '.isEmpty .. |', '.isEmpty .. | .clear .. |', 'C88: clear, which takes &mut self, is allowed on shared maps')
mut('TW07', TS, 'Act.looks', '| .ask _ => true', '| .ask _ => true\n  | .iterMut .. => true', 'C88: iter_mut is allowed on shared maps')
mut('TW08', TS, 'Op.makes', '| .clone .. | .tryClone .. => true', '| .clone .. | .tryClone .. | .append .. => true', 'C88: append is allowed on shared maps')
mut('TW09', TW, 'given', '(tasks.map (·.maps)).flatten', '(tasks.map (·.maps.drop 1)).flatten', 'C88: a map is given to a thread and also used by nobody knows whom')

# C90: set algebra in memory when a comparison panics.
AGU = 'Heap/AlgUnwind.lean'
mut('PANIC01', AGU, 'hdifferenceStitchU', '| none => pure (.unwound (.stitch i p.2) .cmp)', '| none => pure (.unwound (.stitch i j) .cmp)', 'C90: (harmless) the peeked element is forgotten, to be read again')
mut('PANIC02', AGU, 'hdifferenceStitchU', '| some (.lt, cmps) => pure (.done ((some x, .stitch i p.2), cmps))\n    | some (.eq, cmps) => do\n      let n ← i.next', '| some (.lt, cmps) => pure (.done ((some x, .stitch i p.2), cmps))\n    | some (.eq, cmps) => do\n      let n ← p.2.iter.next', 'C90: after equal elements the wrong iterator is advanced')
mut('PANIC03', AGU, 'hdifferenceSearchU', '| none => pure (.unwound (.search n.2 o) .cmp)\n      | some (true, cmps) => hdifferenceSearchU', '| none => pure (.done ((some x, .search n.2 o), cmps))\n      | some (true, cmps) => hdifferenceSearchU', 'C90: a search that panicked counts as not found')
mut('PANIC04', AGU, 'hsymDiffLoopU', '| none => pure (.unwound ⟨p.2, q.2⟩ .cmp)\n    | some (.lt, cmps) => do\n      let n ← p.2.next\n      pure', '| none => do\n      let n ← p.2.next\n      pure (.unwound ⟨n.2, q.2⟩ .cmp)\n    | some (.lt, cmps) => do\n      let n ← p.2.next\n      pure', 'C90: symmetric difference loses an element to the panic')
mut('PANIC05', AGU, 'HTwoIters.unionNextU', '  | none => pure (.unwound ⟨p.2, q.2⟩ .cmp)\n  | some (.lt', '  | none => pure (.unwound ⟨q.2, p.2⟩ .cmp)\n  | some (.lt', 'C90: (harmless with a lawful order) union comes out of the panic with its iterators exchanged')
mut('PANIC06', AGU, 'HTwoIters.unionNextU', '    let n\' ← q.2.next\n    let n ← p.2.next\n    pure (.done ((n.1, ⟨n.2, n\'.2⟩), cmps))\n  | some (.gt', '    let n ← p.2.next\n    pure (.done ((n.1, ⟨n.2, q.2⟩), cmps))\n  | some (.gt', 'C90: union hands out equal elements twice')
mut('PANIC07', AGU, 'hintersectionStitchU', '| none => pure (.unwound (.stitch i j) .cmp)', '| none => pure (.unwound (.stitch j i) .cmp)', 'C90: intersection comes out of the panic with its iterators exchanged')
mut('PANIC08', AGU, 'hintersectionSearchU', '| none => pure (.unwound (.search n.2 o) .cmp)\n      | some (true, cmps) => pure', '| none => pure (.unwound (.search i o) .cmp)\n      | some (true, cmps) => pure', 'C90: (harmless, stronger) intersection by search does not lose the element')
mut('PANIC09', AGU, 'HMap.isDisjointU', '| .unwound _ _ => pure none', '| .unwound _ _ => pure (some (true, 0))', 'C90: is_disjoint says true when a comparison panicked')
mut('PANIC10', AGU, 'hsubsetStitchU', '| .gt => pure (some (false, cmps))\n          | .eq => do\n            let n ← x.next', '| .gt => pure (some (true, cmps))\n          | .eq => do\n            let n ← x.next', 'C90: is_subset true where it is false')
mut('PANIC11', AGU, 'hsubsetSearchU', '| some (false, cmps) => pure (some (false, cmps))', '| some (false, cmps) => pure none', 'C90: is_subset unwound although no comparison panicked')
mut('PANIC12', AGU, 'HMap.isSubsetU', '  if o.length < s.length then pure (some (false, cmps))', '  if o.length < s.length then pure (some (false, cmps - 1))', 'C90: comparisons are used up (leaves the answers)')
mut('PANIC13', AGU, 'hcollectSetU', '| (none, m) => pure (none, m)', '| (none, _) => pure (none, HMap.new)', 'C90: the unfinished set is lost when an insertion is unwound')
mut('PANIC14', AGU, 'hcollectSetU', '| .unwound _ _ => pure (none, m)', '| .unwound _ _ => pure (some (true, 0), m)', 'C90: an operator returns half a set when a comparison panicked')
mut('PANIC15', AGU, 'hcollectEndU', '    let _ ← m.drop\n    pure none', '    pure none', 'C90: the unfinished set is not dropped')
mut('PANIC16', AGU, 'HMap.operatorU', 'let d ← s.intersection o\n    let x ← hcollectSetU HIntersection.nextU fk (s.length + 1) d HMap.new cmps', 'let d ← s.intersection o\n    let x ← hcollectSetU HIntersection.nextU fk (s.length + 1) d s cmps', 'C90: the elements are inserted into the left operand')
mut('PANIC17', AGU, 'HMap.operatorU', 'let d ← s.twoIters o\n    let x ← hcollectSetU HTwoIters.unionNextU', 'let d ← s.twoIters o\n    let x ← hcollectSetU HTwoIters.symDiffNextU', 'C90: | is ^')
mut('PANIC18', AGU, 'HMap.setContainsU', '| none => pure none\n  | some (r, cmps) => pure (some (r.isSome, cmps))', '| none => pure (some (false, 0))\n  | some (r, cmps) => pure (some (r.isSome, cmps))', 'C90: a search that panicked counts as not found')
mut('PANIC19', AGU, 'HAlgView.callsU', '| .unwound v _ => do\n      let r ← HAlgView.callsU cs v', '| .unwound _ _ => do\n      let r ← HAlgView.callsU cs v', 'C90: (harmless, stronger) every panic leaves the iterator as it was before the call')
mut('PANIC20', AGU, 'HMap.isSupersetU', 'o.isSubsetU s cmps', 's.isSubsetU o cmps', 'C90: is_superset is is_subset')
