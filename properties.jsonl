{"id": "C01", "title": "Node ID integers round-trip and order correctly", "statement": "For each ID width k (8, 16, 32, 64, usize), converting a usize v to a node ID succeeds exactly when v < 2^k - 1, converting back returns v, distinct values give distinct IDs, and the Ord of IDs is the numeric order of the values.", "quantifier": "every integer width k >= 1 and every usize value", "why_tests_cant": "64-bit ranges cannot be enumerated; the encoding uses bitwise complement and a reversed comparison", "anchors": ["src/nonmax.rs: define_type! new/get/Ord", "src/dynamic/id.rs: define_internal_id_type!, SealedInternalNodeId"]}
{"id": "C02", "title": "create_root returns a fresh live root and fails only on ID exhaustion", "statement": "create_root(data) on a forest with c nodes ever created returns the c-th ID when c is below the ID capacity; the new node is live, holds data, has no parent, siblings or children, and no other node changes. When the capacity is exhausted it panics and the forest is unchanged.", "quantifier": "every forest state, every capacity", "why_tests_cant": "needs every population size up to the ID limit", "anchors": ["src/dynamic/hierarchy.rs: Hierarchy::create_root", "src/dynamic/forest.rs: Forest::create_root"]}
{"id": "C03", "title": "IDs are never reused and removed nodes never come back", "statement": "Along every sequence of API calls (including calls that panic), an ID handed out by a creation call was never live before, and once a node has been removed its ID is dead forever.", "quantifier": "all histories of public mutating calls, unrestricted, including histories that go through panics", "why_tests_cant": "quantifies over unbounded histories", "anchors": ["src/dynamic/hierarchy.rs: create_root, neighbors, force_make_removed", "src/dynamic/forest.rs: create_root, remove_hooked, create_insert_momo"]}
{"id": "C04", "title": "Liveness seen through data and through structure agree", "statement": "After every sequence of API calls (including ones that panic half-way), data(id) is Some exactly when the structure regards id as live, and both storages have the same length; so Node and NodeMut accessors never hit their '[validity]' panics.", "quantifier": "all histories of public mutating calls, unrestricted, including panicking ones", "why_tests_cant": "unbounded histories and panic points", "anchors": ["src/dynamic/forest.rs: Forest::is_alive, data, remove_hooked, remove_hooked_panic_safe", "src/dynamic/forest/node.rs: Node::new"]}
{"id": "C05", "title": "All neighbour links are mutually consistent after any history", "statement": "After any history, parent_id, first_child_id, last_child_id, next_sibling_id and prev_sibling_id describe one ordered forest: for every live node there is a duplicate-free child list whose head and last are first_child_id/last_child_id, whose members are live, have that node as parent, and whose neighbours in the list are their next/prev siblings; a node with a parent is in its parent's list; a root has no siblings.", "quantifier": "all histories of public mutating calls", "why_tests_cant": "unbounded histories; pointer-aliasing cases", "anchors": ["src/dynamic/hierarchy.rs: connect_triangle, detach, detach_single, insert, SiblingsRange::transplant", "src/dynamic/forest/node.rs: *_id accessors"]}
{"id": "C06", "title": "Trees never contain ancestor-descendant cycles", "statement": "After any history, following parent_id from any live node reaches a root after finitely many steps, bounded by the number of live nodes; hence ancestors() terminates.", "quantifier": "all histories of public mutating calls", "why_tests_cant": "termination and acyclicity over unbounded histories", "anchors": ["src/dynamic/hierarchy.rs: transplant_would_make_cyclic_links, transplant", "src/dynamic/hierarchy/traverse.rs: AncestorsTraverser"]}
{"id": "C07", "title": "insert moves exactly the given subtree to exactly the requested place", "statement": "When insert(node, dest) succeeds, node (with its subtree unchanged) is the first child / last child of, or the previous / next sibling of, the anchor; its old siblings close up in order; every other parent, child list and every datum is unchanged.", "quantifier": "all consistent forests, all nodes, all four kinds of destination, including destinations among the node's current siblings", "why_tests_cant": "unbounded shapes and aliasing between old and new position", "anchors": ["src/dynamic/hierarchy.rs: insert, prepend_child, append_child, insert_before, insert_after, transplant"]}
{"id": "C08", "title": "Re-inserting a node where it already is changes nothing", "statement": "insert(node, dest) where node already is at dest (first child, last child, previous or next sibling of the anchor) succeeds and leaves the forest as it was.", "quantifier": "all consistent forests and all such (node, dest)", "why_tests_cant": "the code has special cases for this aliasing; unit tests only try an only child", "anchors": ["src/dynamic/hierarchy.rs: SiblingsRange::transplant lines 839-849", "src/dynamic/forest/node.rs: tests unchanged_first_child_of_parent"]}
{"id": "C09", "title": "insert rejects exactly the impossible requests", "statement": "On live arguments insert returns Err(AncestorDescendantLoop) exactly when node is the prospective parent or one of its ancestors, Err(UnorderableSiblings) exactly when a sibling position relative to node itself is requested, and succeeds otherwise whenever the anchor of a sibling position has a parent.", "quantifier": "all consistent forests, all node/destination pairs", "why_tests_cant": "needs all ancestor depths", "anchors": ["src/dynamic/hierarchy.rs: insert*, transplant_would_make_cyclic_links", "src/dynamic/forest.rs: StructureError, Forest::insert"]}
{"id": "C10", "title": "A returned StructureError leaves the forest untouched", "statement": "If insert, try_adopt or detach_single returns Err, the forest (links and data) is exactly as before.", "quantifier": "every forest state whatsoever (even inconsistent) and every argument", "why_tests_cant": "atomicity over all states", "anchors": ["src/dynamic/hierarchy.rs: insert, detach_single, transplant"]}
{"id": "C11", "title": "Requesting a sibling of a root is reported as SiblingsWithoutParent", "statement": "insert(node, PreviousSiblingOf(r) | NextSiblingOf(r)) with r a root other than node returns Err(SiblingsWithoutParent) and changes nothing.", "quantifier": "all consistent forests, all live nodes and roots", "why_tests_cant": "all shapes; documentation promises an Err for every such call", "anchors": ["src/dynamic/hierarchy.rs: insert_before, insert_after (.expect on parent)", "src/dynamic/forest.rs: Forest::insert docs"]}
{"id": "C12", "title": "create_insert creates exactly one node at the requested place", "statement": "create_insert(data, dest) with a live anchor (having a parent for sibling destinations) returns a fresh ID; that node is a leaf holding data at dest; nothing else changes. It never fails with a StructureError.", "quantifier": "all consistent forests with spare capacity, all destinations", "why_tests_cant": "all shapes", "anchors": ["src/dynamic/forest.rs: create_insert, create_insert_momo", "src/dynamic/forest/node.rs: NodeMut::create"]}
{"id": "C13", "title": "detach splits off exactly the subtree", "statement": "detach(node) on a live node makes it a root with its subtree unchanged, closes the gap among its former siblings in order, changes nothing else, and is a no-op on roots (so it is idempotent).", "quantifier": "all consistent forests, all live nodes", "why_tests_cant": "all shapes and positions", "anchors": ["src/dynamic/hierarchy.rs: detach", "src/dynamic/forest.rs: Forest::detach", "src/dynamic/forest/node.rs: NodeMut::detach"]}
{"id": "C14", "title": "detach_single replaces a node by its children", "statement": "detach_single(node): with a parent, the node's child list replaces the node in place in the parent's child list and the node becomes an isolated root; without parent it succeeds iff it has at most one child, the only child becoming a root; otherwise it returns Err(SiblingsWithoutParent) unchanged. Nothing else changes.", "quantifier": "all consistent forests, all live nodes, any number of children and siblings", "why_tests_cant": "all list lengths", "anchors": ["src/dynamic/hierarchy.rs: detach_single, SiblingsRange::new/transplant", "src/dynamic/forest.rs: Forest::detach_single"]}
{"id": "C15", "title": "remove deletes exactly the subtree", "statement": "remove / remove_hooked / remove_hooked_panic_safe on a live node kill exactly the node and its descendants, close the gap among siblings, and change neither links nor data of any other node.", "quantifier": "all consistent forests, all live nodes", "why_tests_cant": "all shapes", "anchors": ["src/dynamic/forest.rs: remove, remove_hooked, remove_hooked_panic_safe", "src/dynamic/hierarchy/traverse.rs: SafeModeDepthFirstTraverser"]}
{"id": "C16", "title": "The removal hook sees each datum exactly once, in postorder", "statement": "remove_hooked and remove_hooked_panic_safe call the hook exactly once per removed node, with that node's data, in postorder.", "quantifier": "all consistent forests, all live nodes, all hooks", "why_tests_cant": "all shapes and stateful hooks", "anchors": ["src/dynamic/forest.rs: remove_hooked, remove_hooked_panic_safe"]}
{"id": "C17", "title": "remove_hooked_panic_safe leaves a consistent forest at every panic point", "statement": "If the hook panics at its k-th call, the forest is consistent: exactly the first k nodes of the postorder are dead, the rest of the subtree is a detached tree with the surviving nodes in order, everything else is as after detach(node).", "quantifier": "all consistent forests, all nodes, all panic points k", "why_tests_cant": "all panic points in all shapes", "anchors": ["src/dynamic/forest.rs: remove_hooked_panic_safe"]}
{"id": "C18", "title": "The removal functions agree, and are no-ops on dead nodes", "statement": "remove, remove_hooked and remove_hooked_panic_safe with non-panicking hooks produce identical forests and identical hook call sequences; on a dead or unknown ID they do nothing.", "quantifier": "all consistent forests, all ids", "why_tests_cant": "equivalence of two different algorithms over all shapes", "anchors": ["src/dynamic/forest.rs: remove, remove_hooked, remove_hooked_panic_safe"]}
{"id": "C19", "title": "Depth-first traversal yields the bracketed preorder", "statement": "depth_first_traverse(node) yields Open/Close events of the subtree in document order: Open(n), the events of each child in order, Close(n); it terminates and never panics, also when node is not a root.", "quantifier": "all consistent forests, all live nodes", "why_tests_cant": "all shapes", "anchors": ["src/dynamic/hierarchy/traverse.rs: DepthFirstTraverser", "src/dynamic/forest/traverse.rs: DepthFirstTraverse", "src/dynamic/forest.rs: depth_first_traverse"]}
{"id": "C20", "title": "Double-ended iterators behave as a deque under every interleaving", "statement": "For depth-first, shallow depth-first and sibling iterators, any interleaving of next and next_back yields exactly what popping the front/back of the fixed forward sequence yields: no duplicates, no omissions, both ends meet; afterwards None.", "quantifier": "all consistent forests, all start nodes, all finite sequences of next/next_back calls", "why_tests_cant": "exponentially many interleavings", "anchors": ["src/dynamic/hierarchy/traverse.rs: next, next_back, next_of_next_forward/backward", "src/dynamic/forest/traverse.rs: DoubleEndedIterator impls"]}
{"id": "C21", "title": "Shallow depth-first traversal is the depth-limited restriction", "statement": "shallow_depth_first_traverse(node, m) yields exactly the depth-first events of nodes at relative depth <= m, with correct depths, in order; None (or usize::MAX) means no limit and then the events are those of depth_first_traverse.", "quantifier": "all consistent forests, nodes, limits", "why_tests_cant": "all shapes and limits", "anchors": ["src/dynamic/hierarchy/traverse.rs: ShallowDepthFirstTraverser", "src/dynamic/forest/traverse.rs: ShallowDepthFirstTraverse"]}
{"id": "C22", "title": "Breadth-first traversal yields levels in order", "statement": "breadth_first_traverse(node) yields every node of the subtree exactly once with its relative depth, level by level and in document order inside a level, then None forever.", "quantifier": "all consistent forests, all live nodes", "why_tests_cant": "all shapes; the algorithm restarts a depth-limited search per level", "anchors": ["src/dynamic/hierarchy/traverse.rs: BreadthFirstTraverser", "src/dynamic/forest/traverse.rs: BreadthFirstTraverse"]}
{"id": "C23", "title": "Allocating breadth-first traversal agrees with the non-allocating one; size_hint and peek are right", "statement": "allocating_breadth_first_traverse yields the same sequence; at every point its size_hint lower bound never exceeds, and its upper bound never undercuts, the number of items still to come, and it is exactly (0, Some(0)) as soon as no item is left; peek equals what next returns.", "quantifier": "all consistent forests, all live nodes, all points of the iteration", "why_tests_cant": "equivalence over all shapes and positions", "anchors": ["src/dynamic/hierarchy/traverse.rs: AllocatingBreadthFirstTraverser", "src/dynamic/forest/traverse.rs: AllocatingBreadthFirstTraverse"]}
{"id": "C24", "title": "ancestors yields the path to the root", "statement": "ancestors_or_self(node) yields node, its parent, ... up to its root; ancestors(node) the same without node; x occurs in ancestors_or_self(y) exactly when y occurs in depth_first_traverse(x).", "quantifier": "all consistent forests, all live nodes", "why_tests_cant": "all depths", "anchors": ["src/dynamic/hierarchy/traverse.rs: AncestorsTraverser", "src/dynamic/forest/node.rs: ancestors, ancestors_or_self"]}
{"id": "C25", "title": "Sibling iterators yield the right slices of the child list", "statement": "children(n) yields the child list; following_siblings(_or_self) the suffix after (from) the node; preceding_siblings(_or_self) the prefix before (through) the node, first to last; roots have only themselves.", "quantifier": "all consistent forests, all live nodes", "why_tests_cant": "all list lengths and positions", "anchors": ["src/dynamic/hierarchy/traverse.rs: SiblingsTraverser", "src/dynamic/forest/node.rs: children, following_siblings, preceding_siblings, first_skipped, last_skipped"]}
{"id": "C26", "title": "Iterators are fused", "statement": "Once next (or next_back) of any iterator has returned None, every later next / next_back returns None.", "quantifier": "every iterator state over every forest, even an inconsistent one", "why_tests_cant": "all states", "anchors": ["src/dynamic/forest/traverse.rs: FusedIterator impls", "src/dynamic/hierarchy/traverse.rs"]}
{"id": "C27", "title": "peek and peek_back predict without consuming", "statement": "peek() returns exactly what the following next() returns and peek_back() what next_back() returns, for every iterator that has them, in every state of the iteration.", "quantifier": "all iterator states", "why_tests_cant": "all states", "anchors": ["src/dynamic/hierarchy/traverse.rs: peek, peek_back", "src/dynamic/forest/traverse.rs"]}
{"id": "C28", "title": "clone_local_tree makes an isomorphic independent copy", "statement": "clone_local_tree(src) returns a fresh root whose subtree has the same shape as src's subtree and cloned data node for node; the source tree and all other nodes are unchanged.", "quantifier": "all consistent forests with spare capacity, all live nodes, all clone functions", "why_tests_cant": "all shapes; reads and writes the same arena", "anchors": ["src/dynamic/forest.rs: clone_local_tree, clone_local_tree_with_id_mapping"]}
{"id": "C29", "title": "clone_foreign_tree makes an isomorphic copy in another forest", "statement": "clone_foreign_tree(src) adds to the destination a fresh root with the same shape and cloned data as src; the rest of the destination is unchanged.", "quantifier": "all pairs of consistent forests with spare capacity, all live source nodes", "why_tests_cant": "all shapes", "anchors": ["src/dynamic/forest.rs: clone_foreign_tree, clone_foreign_tree_with_id_mapping"]}
{"id": "C30", "title": "The ID mapping callback enumerates the copy bijectively", "statement": "The *_with_id_mapping variants call the callback once per source node in preorder with (source ID, copy ID); the copy IDs are pairwise distinct fresh IDs; the mapping commutes with parent and children and relates data by clone. A panic of the callback or of T::clone leaves a consistent forest whose old nodes are unchanged, with exactly the copies made so far.", "quantifier": "all consistent forests, all live source nodes", "why_tests_cant": "all shapes", "anchors": ["src/dynamic/forest.rs: clone_local_tree_with_id_mapping, clone_foreign_tree_with_id_mapping"]}
{"id": "C31", "title": "NestTreeBuilder builds exactly the described tree", "statement": "Any nesting of add_child / create_tree calls on a NestTreeBuilder yields, under a fresh root, exactly the tree described by the nesting, in call order; other trees are unchanged.", "quantifier": "all consistent forests, all finite nested call scripts", "why_tests_cant": "unbounded nesting", "anchors": ["src/dynamic/forest/nest_builder.rs: NestTreeBuilder"]}
{"id": "C32", "title": "ChainTreeBuilder is a cursor that appends children and siblings", "statement": "Each child/sibling/parent/try_parent call moves the cursor as documented and adds exactly the documented node: child appends a last child of the current node, sibling inserts right after the current node; parent/try_parent move up, try_parent returning None (parent panicking) exactly at the root.", "quantifier": "all consistent forests, all call sequences", "why_tests_cant": "unbounded call sequences", "anchors": ["src/dynamic/forest/chain_builder.rs: ChainTreeBuilder"]}
{"id": "C33", "title": "debug_print shows the tree faithfully", "statement": "The debug_print output of a node is the usual ASCII rendering of its subtree: one line per node in preorder, prefixed according to ancestors having further siblings, regardless of how Display splits its output into chunks.", "quantifier": "all consistent forests, all live nodes, all data texts, all chunkings", "why_tests_cant": "all shapes and texts", "anchors": ["src/dynamic/forest/debug_print.rs: IndentWriter, DebugPrint, prepare_next_node_printing"]}
{"id": "C34", "title": "Structural operations never touch surviving data; data_mut touches one node only", "statement": "insert, detach, detach_single, creation, cloning never change the data of an existing node; writing through data_mut(id) changes exactly data(id) and no links.", "quantifier": "every forest state (even inconsistent) and every call", "why_tests_cant": "all states", "anchors": ["src/dynamic/forest.rs: data_mut, insert, detach, detach_single, create_insert"]}
{"id": "C35", "title": "NodeMut operations are the Forest operations at the node", "statement": "NodeMut::create/try_adopt/adopt/detach/detach_single/remove* have exactly the effect of the corresponding Forest call with the AdoptAs variant translated to the InsertAs variant anchored at the node; adopt panics exactly when try_adopt returns Err (or panics).", "quantifier": "all forests, nodes, AdoptAs variants", "why_tests_cant": "all states", "anchors": ["src/dynamic/forest/node.rs: NodeMut", "src/dynamic/anchor.rs: AdoptAs::insert_with_anchor"]}
{"id": "C36", "title": "Precondition violations panic before any change", "statement": "insert, detach and detach_single given a dead or unknown node (or dead anchor) panic and leave the forest unchanged, except that insert(x, PreviousSiblingOf(x) | NextSiblingOf(x)) returns Err(UnorderableSiblings) even for a dead x; create_insert with an out-of-range anchor panics leaving the forest unchanged.", "quantifier": "all consistent forests, all ids", "why_tests_cant": "all arguments", "anchors": ["src/dynamic/hierarchy.rs: detach, detach_single, insert*", "src/dynamic/forest.rs: create_insert_momo"]}
{"id": "C37", "title": "Every traversal visits each node of the subtree exactly once", "statement": "The Open events of depth_first_traverse(n), its Close events, and the items of breadth_first_traverse(n) are each a duplicate-free enumeration of exactly the live nodes having n as ancestor-or-self.", "quantifier": "all consistent forests, all live nodes", "why_tests_cant": "all shapes", "anchors": ["src/dynamic/hierarchy/traverse.rs"]}
{"id": "C38", "title": "No internal consistency panic is reachable by well-formed use", "statement": "On a consistent forest, calls on live arguments that satisfy the documented preconditions never panic and never loop forever.", "quantifier": "all consistent forests and all calls meeting the preconditions", "why_tests_cant": "all states", "anchors": ["src/dynamic/hierarchy.rs", "src/dynamic/forest.rs", "src/dynamic/hierarchy/traverse.rs"]}
{"id": "C39", "title": "Insert then detach undoes the attachment", "statement": "After a successful insert(node, dest), detach(node) yields the same forest as detach(node) alone on the original forest.", "quantifier": "all consistent forests, nodes, destinations not already occupied by the node", "why_tests_cant": "all shapes", "anchors": ["src/dynamic/hierarchy.rs: insert, detach"]}
{"id": "C40", "title": "A panicking hook in remove_hooked may corrupt the forest, in the panic-safe variant never", "statement": "The documented difference is real: there is a forest and a hook panic after which remove_hooked leaves links to dead nodes, whereas for remove_hooked_panic_safe no such forest and hook exist. Since Forest::remove is remove_hooked with the hook drop, a datum whose Drop panics (other than the last one dropped) makes remove leave links to dead nodes too.", "quantifier": "all forests, hooks and panic points", "why_tests_cant": "negative existence claim over all histories", "anchors": ["src/dynamic/forest.rs: remove_hooked, remove_hooked_panic_safe"]}
{"id": "C41", "title": "Only two kinds of calls can destroy consistency, and they always do", "statement": "On a consistent forest a call leaves an inconsistent forest if and only if it is an insert/adopt of a node at the place where it already is (other than FirstChildOf of an only child) or a remove_hooked whose hook panics before the removed root is dead; the first such call of a history is the first inconsistent moment.", "quantifier": "all consistent forests, all calls of the public API with all arguments, returning or panicking; all histories", "why_tests_cant": "needs every state and every call", "anchors": ["src/dynamic/forest.rs: insert, remove_hooked", "src/dynamic/hierarchy.rs: transplant"]}
{"id": "C42", "title": "A failing call changes nothing", "statement": "If create_root, insert, detach, detach_single, remove, try_adopt, adopt or a datum write does not succeed (Err or caught panic) the forest is exactly what it was, except for LastChildOf of an only child; a failing create_insert leaves the forest unchanged or with one additional isolated root holding the datum.", "quantifier": "all consistent forests, all arguments", "why_tests_cant": "all states and all failing arguments", "anchors": ["src/dynamic/forest.rs: insert, detach, detach_single, create_insert", "src/dynamic/forest/node.rs: try_adopt, adopt"]}
{"id": "C43", "title": "Detach can be undone", "statement": "For a node x with a parent and any of the (up to four) descriptions dest of its place, detach(x) followed by insert(x, dest) returns Ok and restores the identical forest.", "quantifier": "all consistent forests, nodes and descriptions of their place", "why_tests_cant": "all shapes and positions", "anchors": ["src/dynamic/forest.rs: detach, insert"]}
{"id": "C44", "title": "Detaches commute", "statement": "Detaching two live nodes gives the identical forest in either order.", "quantifier": "all consistent forests, all pairs of live nodes", "why_tests_cant": "all shapes, including ancestor/descendant and sibling pairs", "anchors": ["src/dynamic/forest.rs: detach"]}
{"id": "C45", "title": "The last insert wins", "statement": "After a successful insert(x, d1), insert(x, d2) succeeds exactly if it would have succeeded on the original forest, with the identical resulting forest; moving x away and back to its old place restores the identical forest.", "quantifier": "all consistent forests, nodes, destinations (not where the node already is)", "why_tests_cant": "all pairs of destinations and shapes", "anchors": ["src/dynamic/forest.rs: insert"]}
{"id": "C46", "title": "Moving a tree before removing it makes no difference", "statement": "detach(x) or a successful insert(x, dest) followed by remove, remove_hooked or remove_hooked_panic_safe of x has exactly the result (forest, hook state, panic) of the removal alone.", "quantifier": "all consistent forests, nodes, destinations, all hooks including panicking ones", "why_tests_cant": "all shapes and hooks", "anchors": ["src/dynamic/forest.rs: remove, remove_hooked, remove_hooked_panic_safe, detach, insert"]}
{"id": "C47", "title": "Removals commute and absorb", "statement": "Removing two IDs (live or dead) gives the identical forest in either order; if one is an ancestor of the other this is the forest after removing the ancestor only.", "quantifier": "all consistent forests, all pairs of IDs", "why_tests_cant": "all shapes", "anchors": ["src/dynamic/forest.rs: remove"]}
{"id": "C48", "title": "Removing what was added leaves the old nodes as they were", "statement": "clone_local_tree / clone_foreign_tree / create_insert followed by remove of the returned ID: every old node has its old parent, children in order and data; the new IDs are dead.", "quantifier": "all consistent forests, source trees, destinations", "why_tests_cant": "all shapes", "anchors": ["src/dynamic/forest.rs: clone_local_tree, clone_foreign_tree, create_insert, remove"]}
{"id": "C49", "title": "The structure never depends on the data", "statement": "Two histories whose calls differ only in the data supplied (and in hooks reacting to the replaced data in the same way) issue the same IDs, return/fail/panic at the same calls, and end in forests with the same live IDs and links; corresponding nodes hold corresponding data.", "quantifier": "all forests (consistent or not), all calls and histories, all replacements of data by other data of another type", "why_tests_cant": "all data types, values and histories", "anchors": ["src/dynamic/forest.rs: Forest<T>", "src/dynamic/hierarchy.rs: Hierarchy"]}
{"id": "C50", "title": "A NodeMut proxy stays valid", "statement": "Whatever is done through a NodeMut (create, adopt, try_adopt, detach, detach_single, writes through data_mut), whether the calls return or panic, its node()/data()/data_mut() never panic afterwards, data() reads the last value written, writes touch this datum only, and no live node dies or loses its data. debug_print of the proxy is debug_print of the node.", "quantifier": "all forests (consistent or not), all live nodes, all sequences of calls with all arguments", "why_tests_cant": "all states and call sequences", "anchors": ["src/dynamic/forest/node.rs: NodeMut"]}
{"id": "C51", "title": "Forest::clone is faithful", "statement": "A cloned forest has the same live IDs, the same parents and ordered children, and cloned data; all accessors and traversals answer as in the original; further calls on the clone go as the same calls on the original.", "quantifier": "all forests, all data clone functions, all later histories", "why_tests_cant": "all forests and histories", "anchors": ["src/dynamic/forest.rs: derive(Clone) for Forest"]}
{"id": "C52", "title": "IDs stay within the ID type's capacity", "statement": "Whatever is done with a forest - including calls that panic, corrupt the forest or exhaust the IDs - the number of IDs ever issued never exceeds the number of values of the ID type, and every live ID is below it.", "quantifier": "all histories of API calls, all ID capacities", "why_tests_cant": "all histories", "anchors": ["src/dynamic/hierarchy.rs: create_root", "src/dynamic/forest.rs: create_root", "src/dynamic/id.rs: InternalNodeId"]}
{"id": "C53", "title": "The roots' traversals enumerate the forest", "statement": "On a consistent forest the depth-first traversals of the live root nodes, concatenated, open every live node exactly once and nothing else; every live node is below exactly one root.", "quantifier": "all consistent forests", "why_tests_cant": "all forest shapes", "anchors": ["src/dynamic/forest.rs: depth_first_traverse", "src/dynamic/hierarchy/traverse.rs"]}
{"id": "C54", "title": "Reported depth is the generation count", "statement": "The depth that the breadth-first and shallow depth-first traversals from n report for x is d exactly if the ancestors_or_self iterator of x yields n at position d; nodes not below n are not reported.", "quantifier": "all consistent forests, all pairs of live nodes, all depths", "why_tests_cant": "all shapes and depths", "anchors": ["src/dynamic/hierarchy/traverse.rs: BreadthFirstTraverser, ShallowDepthFirstTraverser, AncestorsTraverser"]}
{"id": "C57", "title": "Node census of every operation", "statement": "insert, detach, detach_single and data_mut (returning or not) change neither the set of live nodes nor the number of issued IDs; create* adds exactly the returned ID; clone_* and the nest builder add exactly a contiguous block of new IDs of the size of the copied/described tree; remove subtracts exactly the subtree.", "quantifier": "all forests (any state for moves; coherent for create; consistent otherwise), all arguments", "why_tests_cant": "all states and arguments", "anchors": ["src/dynamic/forest.rs: insert, detach, detach_single, create_root, create_insert, clone_local_tree, clone_foreign_tree, remove", "src/dynamic/forest/nest_builder.rs", "src/dynamic/forest/chain_builder.rs"]}
{"id": "C58", "title": "Traversal sizes agree", "statement": "From the same node the depth-first traversal yields exactly two events for each item of the breadth-first traversal; the latter is non-empty, not longer than the number of live nodes, its depths are smaller than its length and without gaps.", "quantifier": "all consistent forests and live nodes", "why_tests_cant": "all shapes", "anchors": ["src/dynamic/hierarchy/traverse.rs: DftEvent, DepthFirstTraverser, BreadthFirstTraverser"]}
{"id": "C55", "title": "Which traversals an operation changes", "statement": "After a call, the depth-first traversal of a live node y is event for event the same as before exactly if the call did not change the children of y or a descendant: insert changes exactly the views of the old and new ancestors of the moved node, detach and remove exactly those of the former ancestors, detach_single those and (if it had children) the node's own, creation exactly those of the ancestors of the new node, copies and builders none (even if they panic).", "quantifier": "all consistent forests, all arguments, all live nodes y (insert: where the node is not already in place)", "why_tests_cant": "all pairs of operation and observer", "anchors": ["src/dynamic/forest.rs: insert, detach, detach_single, remove, create_insert, clone_local_tree", "src/dynamic/hierarchy/traverse.rs: DepthFirstTraverser"]}
{"id": "C56", "title": "A copy looks like its source", "statement": "Whenever clone_local_tree / clone_foreign_tree returns, the copy's depth-first and breadth-first traversals (with depths) and data are those of the source under a renaming of IDs; and what debug_print writes depends only on the tree of displayed data, not on IDs, the rest of the forest, the history or the data type.", "quantifier": "all consistent source and destination forests, all nodes, all displays and writers", "why_tests_cant": "all shapes, IDs and histories", "anchors": ["src/dynamic/forest.rs: clone_local_tree, clone_foreign_tree, debug_print", "src/dynamic/forest/debug_print.rs"]}
{"id": "C59", "title": "Every way of building a tree gives the same forest", "statement": "Given enough IDs, building a tree with the nested-closure builder, with the chain builder, or copying a tree with the same data from this or another forest yields the same root ID and the same forest.", "quantifier": "all consistent forests, all trees, all descriptions of the tree by builder calls or as a copy", "why_tests_cant": "all trees and ways to build them", "anchors": ["src/dynamic/forest/nest_builder.rs: TreeBuilder", "src/dynamic/forest/chain_builder.rs: ChainTreeBuilder", "src/dynamic/forest.rs: clone_local_tree, clone_foreign_tree"]}
{"id": "C60", "title": "The ID type does not matter until it is exhausted", "statement": "If a call or a whole history of calls with a larger ID type issues no more IDs than a smaller ID type has, then with the smaller type everything goes the same: forests, returned IDs, successes and failures.", "quantifier": "all coherent forests, all creating calls, all histories, all pairs of ID capacities", "why_tests_cant": "all histories and capacities", "anchors": ["src/dynamic/id.rs: InternalNodeId, impl_id!", "src/dynamic/hierarchy.rs: create_root", "src/dynamic/forest.rs: create_root"]}
{"id": "C61", "title": "No hidden state", "statement": "Two consistent forests that have issued the same number of IDs and answer is_alive, data and the five neighbour accessors alike are the same forest, so every further call goes the same in both.", "quantifier": "all pairs of consistent forests", "why_tests_cant": "all pairs of states", "anchors": ["src/dynamic/forest.rs: Forest", "src/dynamic/hierarchy.rs: Hierarchy, Neighbors"]}
{"id": "C62", "title": "debug_print loses and mixes nothing", "statement": "Printing a live node to a String returns Ok exactly if the formatters of all data in the subtree succeed, and then the output consists of the texts of the nodes in preorder, each complete and unchanged, with only drawing characters, blanks and newlines between them; no line shows data of two nodes and nothing is drawn behind data on a line. This holds for every text (empty, multi-line) and every splitting into write_str calls.", "quantifier": "all consistent forests, live nodes, data texts, splittings and (adaptive, failing) data formatters", "why_tests_cant": "all trees and texts", "anchors": ["src/dynamic/forest/debug_print.rs: IndentWriter, DebugPrint"]}
{"id": "C63", "title": "Release and debug builds do the same", "statement": "A release build (no debug assertions, wrapping arithmetic) and a debug build (assertions, checked arithmetic) give the same results and the same forests: in every forest for remove, remove_hooked, copies and printing; in every consistent forest, hence along every history without a destroying call, for detach_single and remove_hooked_panic_safe as well; in an arbitrary forest whenever the debug build returns. Depth-reporting iterators report in both builds what unbounded arithmetic would. (In a forest already destroyed by an in-place insertion the builds may differ.)", "quantifier": "all forests (resp. consistent forests, histories), all arguments, hooks, formatters and writers, all sequences of next / next_back / peek, all usize widths", "why_tests_cant": "tests run one build on finitely many forests", "anchors": ["src/dynamic/hierarchy.rs: detach_single", "src/dynamic/forest.rs: remove_hooked_panic_safe", "src/dynamic/hierarchy/traverse.rs: SafeModeDepthFirstTraverser, ShallowDepthFirstTraverser, BreadthFirstTraverser, AllocatingBreadthFirstTraverser", "src/dynamic/forest/debug_print.rs: IndentWriter"]}
{"id": "C64", "title": "Documented complexity of breadth-first iteration", "statement": "Iterating a subtree of n nodes completely takes O(n^2) steps with breadth_first_traverse, and this is not O(n): for every constant c there is a tree, made by the builder, whose iteration takes more than c*n steps. With allocating_breadth_first_traverse it takes O(n) steps and the queue never holds more than n+1 elements. The exact step counts are given.", "quantifier": "all consistent forests, all live start nodes, all numbers of next calls; for the lower bound all constants", "why_tests_cant": "an asymptotic bound is about all sizes", "anchors": ["src/dynamic/hierarchy/traverse.rs: BreadthFirstTraverser, AllocatingBreadthFirstTraverser", "src/dynamic/forest.rs: breadth_first_traverse, allocating_breadth_first_traverse"]}
{"id": "C65", "title": "The whole interface behaves like a naive list of trees", "statement": "A client program that creates, moves, detaches, dissolves, removes, copies and builds trees, writes data and looks at links, data and iterators, deciding on each call by all earlier answers, gets from this library exactly the answers (IDs, errors, panics, iterator items, dropped data, ID pairs) it would get from a naive implementation that keeps a list of trees with labelled nodes and no links. This includes what is left behind when calls panic (unknown IDs, exhausted IDs, panicking builder closures, panicking copy callbacks, panicking T::clone, panicking hooks of the panic-safe removal) and everything debug_print prints, whatever the texts of the data. The only exceptions are in-place insertions and calls of remove_hooked whose hook panics before its last call.", "quantifier": "all clients (adaptive sequences of calls, any arguments), any number of calls, any number of available IDs, from the empty forest and from any consistent forest", "why_tests_cant": "the property is about every program using the library", "anchors": ["src/dynamic/forest.rs", "src/dynamic/hierarchy.rs", "src/dynamic/hierarchy/traverse.rs", "src/dynamic/forest/node.rs", "src/dynamic/forest/nest_builder.rs", "src/dynamic/forest/chain_builder.rs"]}
{"id": "C66", "title": "Programs with several forests", "statement": "A program that makes several forests, calls anything on each of them, copies trees from one forest into another (also with panicking callbacks, panicking T::clone and exhausted IDs) and clones whole forests, deciding on each step by all earlier answers, gets exactly the answers it would get if each forest were a naive list of trees of its own. In particular a step never has an effect on a forest it is not about: a source of a copy, a cloned forest and its clone, and unrelated forests stay as they are. Exceptions only as for one forest (in-place insertions, printing of other texts than single lines).", "quantifier": "all programs (adaptive sequences of steps, any arguments), any number of forests and steps, any number of available IDs", "why_tests_cant": "the property is about every program using the library", "anchors": ["src/dynamic/forest.rs"]}
{"id": "C67", "title": "Copying with an effectful T::clone", "statement": "clone_local_tree_with_id_mapping and clone_foreign_tree_with_id_mapping call T::clone and the callback in turn, once per node of the source tree, in preorder, the callback after the copy of its node exists and with the node and its copy; whatever these two do to the rest of the program (shared counters, logs), and whenever one of them panics or the IDs run out, the state they leave behind, the panic, the nodes made (a preorder prefix of the tree with consecutive fresh IDs) and their data are exactly those of this sequence of calls, and the rest of the forest is untouched. Forest::clone calls T::clone once per live node, in the order of the IDs, until it panics, and gives a forest of the same shape with the data returned. For a dead source neither is called.", "quantifier": "all consistent forests, all source trees, all state-changing and panicking T::clone and callbacks, any number of available IDs", "why_tests_cant": "the order and number of calls must be right for every tree and every behaviour of user code", "anchors": ["src/dynamic/forest.rs"]}
{"id": "C68", "title": "Calls are local", "statement": "What a call answers and does depends only on the trees of the nodes it is given, and it changes nothing outside of them: two forests that agree on these trees and have handed out equally many IDs give the same answer, and all nodes in other trees keep their data and links, whatever state those other trees are in.", "quantifier": "all calls of the interface, all forests (also those destroyed by earlier calls), all contents of the rest of the forest, all hooks", "why_tests_cant": "no finite set of surroundings shows independence from all of them", "anchors": ["src/dynamic/forest.rs", "src/dynamic/hierarchy.rs", "src/dynamic/hierarchy/traverse.rs", "src/dynamic/forest/traverse.rs", "src/dynamic/forest/nest_builder.rs", "src/dynamic/forest/chain_builder.rs", "src/dynamic/forest/debug_print.rs"]}
{"id": "C69", "title": "Damage is contained", "statement": "The calls that destroy a forest (C05) destroy only the trees of the nodes they are given. After any history, the trees that were never given to a harmful call or to a later call together with a damaged tree form a well-formed ordered forest; calls on them are answered and act exactly as if the damaged trees had been removed. Copying a damaged tree within the forest damages nothing: the copy is a sound tree.", "quantifier": "all histories, including any number of harmful calls and further calls on the damaged trees, all clients", "why_tests_cant": "the damage a history can do has no bound; that it never leaks into other trees needs an invariant", "anchors": ["src/dynamic/forest.rs", "src/dynamic/hierarchy.rs", "src/dynamic/hierarchy/traverse.rs", "src/dynamic/forest/traverse.rs", "src/dynamic/forest/nest_builder.rs", "src/dynamic/forest/chain_builder.rs", "src/dynamic/forest/debug_print.rs"]}
{"id": "C70", "title": "Calls on different trees commute", "statement": "Two calls that make no nodes and are given nodes of different trees can be swapped: each gives the same answer first or second, and the forest afterwards is the same. In forests destroyed by earlier calls the same holds for calls that reach no common node through links.", "quantifier": "all forests, all pairs of calls, all hooks", "why_tests_cant": "independence of order must hold for every pair of calls in every forest", "anchors": ["src/dynamic/forest.rs", "src/dynamic/hierarchy.rs"]}
{"id": "C71", "title": "Exactly what debug_print prints", "statement": "For all trees and all texts, however the data's formatters split them into pieces, and all sinks, debug_print writes exactly the text of a small specification (Spec/Printed.lean), up to the first piece the sink refuses. That text is the expected picture exactly if the node printed has no children or every text ends in a non-empty line and every text of several lines either is the root's, or comes with its first newline in a later piece than its first character and belongs to a child of the root or to a child that is not the last one.", "quantifier": "all forests, nodes, texts, splittings and sinks", "why_tests_cant": "the output depends on unbounded texts, shapes and splittings; the exact boundary of the quirks cannot be sampled", "anchors": ["src/dynamic/forest/debug_print.rs", "IndentWriter::write_str", "prepare_next_node_printing"]}
{"id": "C72", "title": "Iterators look only at what they give", "statement": "Nodes deeper than the limit of a shallow traversal are skipped without being looked at: whatever their records are (even inconsistent ones), the traversal gives the right items in any interleaving of next and next_back, two per node within the limit. Likewise depth-first and breadth-first traversals depend only on the nodes of the subtree, ancestors only on the path to the root, children only on the node and its children, the sibling iterators only on the siblings and the parent.", "quantifier": "all forests, nodes, limits, interleavings, and all possible contents of the other nodes' records", "why_tests_cant": "independence of the rest ranges over all contents of all other records, including damaged ones; a test can only vary a few", "anchors": ["src/dynamic/forest.rs", "Forest::shallow_depth_first_traverse", "src/dynamic/hierarchy/traverse.rs", "ShallowDepthFirstTraverser", "DepthFirstTraverser", "BreadthFirstTraverser", "AllocatingBreadthFirstTraverser", "AncestorsTraverser", "SiblingsTraverser"]}
{"id": "C73", "title": "Every consistent forest can be made, and only those", "statement": "A forest value can be made from the empty one by calls none of which is an in-place insertion or a panicking hook if and only if its links describe a well-formed ordered forest and it has at most as many IDs as the ID type allows; create_root, remove, detach and insert(_, LastChildOf) suffice, with at most four calls per ID, all succeeding. Two such forests with the same live nodes and data can be turned into each other by detach and insert(_, LastChildOf) alone.", "quantifier": "all consistent forests of any size, all pairs of arrangements of the same nodes", "why_tests_cant": "reachability of every arrangement is an existence claim over unboundedly many forests; a test builds a few of them", "anchors": ["src/dynamic/forest.rs", "Forest::create_root", "Forest::insert", "Forest::detach", "Forest::remove"]}
{"id": "C74", "title": "The guarantees for all histories hold in release builds", "statement": "Compiled without debug assertions the crate gives the same guarantees for every history, including histories with calls that destroy trees: IDs are fresh and removed nodes stay removed, all accessors agree on which nodes are alive, structure-only calls keep the data, the structure does not depend on the data, calls only depend on and change the trees of the nodes they are given, and damage stays in the trees it was done to. The forest a call leaves can differ between the builds only for remove_hooked_panic_safe.", "quantifier": "all histories of calls (with panicking hooks and in-place insertions) in a release build", "why_tests_cant": "the two builds are different programs on destroyed forests, and a test suite runs in one of them on a few histories", "anchors": ["src/dynamic/forest.rs", "src/dynamic/hierarchy.rs", "Forest::remove_hooked_panic_safe", "Forest::detach_single"]}
{"id": "C75", "title": "The Debug output of a forest shows all of it", "statement": "Two forests with the same {:?} or the same {:#?} dump have the same links, live nodes and number of IDs, whatever their data prints; with a data formatter that prints different data differently, two forests have the same {:#?} dump only if they are equal, whatever line breaks and brackets the data's texts contain, and the same {:?} dump only if they are equal provided the data's text cannot run into what follows it. Different IDs print differently, on one line also under {:#?}; the three structure errors have different messages.", "quantifier": "all pairs of forests (any history, destroyed ones included), all data formatters", "why_tests_cant": "injectivity of a printer over all pairs of forests and all formatters; tests compare a few dumps", "anchors": ["src/dynamic/forest.rs", "src/dynamic/hierarchy.rs", "src/dynamic/id.rs", "Forest (derive Debug)", "impl fmt::Debug for Neighbors", "impl fmt::Display for StructureError"]}
{"id": "C76", "title": "ID types of the user's own are transparent", "statement": "With an ID type of the user's own whose two conversions are inverse to each other (as made by impl_dynamic_node_id!), every call of the public interface leaves the same forest and gives the same answer as the same call with an ID type of the crate, up to replacing the IDs, in calls, answers, iterator items and callback arguments alike; so no client, whatever it decides by the answers it gets, can tell one ID type from another. With any implementation of NodeId at all, inverse or not, the forest stays coherent (hierarchy and data agree on liveness) and dead nodes stay dead.", "quantifier": "all ID types, all clients (each call depending on all previous answers), all forests, all callbacks", "why_tests_cant": "ranges over all implementations of a trait by downstream crates and all adaptive clients; tests use the one type they define", "anchors": ["src/dynamic/id.rs", "NodeId", "impl_dynamic_node_id", "src/dynamic/forest.rs", "src/dynamic/forest/node.rs", "src/dynamic/forest/traverse.rs", "src/dynamic/forest/nest_builder.rs", "src/dynamic/forest/chain_builder.rs", "InsertAs::map"]}
{"id": "C77", "title": "Data are conserved in every history", "statement": "Double-entry bookkeeping of the user's data: in every history of calls, returned or panicked, the data that ever entered a forest are, each as often, exactly the data it still holds together with those that left it. A datum leaves by being given to the hook of a removal (once; also if the hook panics at it), by being dropped by remove, or by being overwritten through data_mut; the data that enter in a call are the first of those the caller passed, in order (all of them if the call returns), or copies made by T::clone. So no datum is lost, duplicated or made up. Also in release builds.", "quantifier": "all histories of calls from any forest, all hooks and clone functions including panicking ones, all data types", "why_tests_cant": "quantifies over all histories with panics at any point; a leaked or doubly dropped datum shows only in the history that has it", "anchors": ["src/dynamic/forest.rs", "Forest::create_root", "Forest::create_insert", "Forest::remove", "Forest::remove_hooked", "Forest::remove_hooked_panic_safe", "Forest::data_mut", "src/dynamic/forest/nest_builder.rs", "src/dynamic/forest/chain_builder.rs", "Forest::clone_local_tree_with_id_mapping", "Forest::clone_foreign_tree_with_id_mapping"]}
{"id": "C78", "title": "Iterators may be kept, mixed and cloned freely", "statement": "A client may keep any number of iterators of all kinds over one forest, use them in any order (next, next_back, peek, peek_back, max_depth), clone them half-way and make other calls in between; the answers are those of an implementation in which an iterator is just the list of the items still to be given, popped at its ends, and a clone is a copy of that list. In particular a clone goes on where the original was, and neither disturbs the other; size_hint of an allocating breadth-first iterator always encloses the number of items left.", "quantifier": "all clients (each call depending on all previous answers), all histories, any number of iterators at once", "why_tests_cant": "the interleavings of several cloned iterators with other calls are unbounded; a test tries one", "anchors": ["src/dynamic/forest/traverse.rs", "DepthFirstTraverse", "ShallowDepthFirstTraverse", "BreadthFirstTraverse", "AllocatingBreadthFirstTraverse", "Ancestors", "Siblings", "src/dynamic/hierarchy/traverse.rs"]}
{"id": "C79", "title": "Cost of the mutating calls", "statement": "Counting calls and loop rounds: detach takes constant time; insert and create_insert take one round for each ancestor of the new parent (an attempted loop is noticed when the node is met) plus a constant, and a refused request constant time; detach_single takes one round per ancestor and per child (constant time without children or without parent); the removals take two rounds per node of the removed tree whatever its shape and the rest of the forest; copying a tree takes seven steps per node plus one per pair of a node and an ancestor of it inside the copy, so it is quadratic at worst, and not linear: lines attain the bound. Calls that fail half-way do not take more.", "quantifier": "all consistent forests, all nodes, destinations, trees, hooks and clone functions; all sizes", "why_tests_cant": "complexity bounds are statements about all sizes; a benchmark samples a few", "anchors": ["src/dynamic/hierarchy.rs", "Hierarchy::insert", "Hierarchy::detach_single", "SiblingsRange::transplant", "SiblingsRange::transplant_would_make_cyclic_links", "src/dynamic/forest.rs", "Forest::create_insert", "Forest::remove_hooked", "Forest::remove_hooked_panic_safe", "Forest::clone_local_tree", "Forest::clone_foreign_tree"]}
{"id": "C80", "title": "debug_print calls each formatter once, in order", "statement": "The formatter of every node of the printed tree is called exactly once, in preorder, each call returning before the next one, so formatters with side effects (counters, shared state) behave predictably; if a formatter or the sink fails, or a formatter panics, the calls made so far are an initial part of that series and no further one follows. Whatever effects they have, the printer itself neither panics nor loops. A formatter that carries a state from call to call prints the picture labelled with that state threaded through the tree in preorder.", "quantifier": "all consistent forests, all live nodes, all sinks and all terminating formatters, which may read and change any state they share with each other and the sink, swallow errors, fail, panic", "why_tests_cant": "the formatters are arbitrary user code; the number and order of calls must be right for all trees and failures", "anchors": ["src/dynamic/forest/debug_print.rs", "DebugPrint", "Forest::debug_print"]}
{"id": "C81", "title": "NestTreeBuilder withstands hostile closures", "statement": "Whatever the closures given to create_tree do with their &mut NestTreeBuilder (add, nest, panic, catch panics and go on, exchange it with a builder on another forest), the calls end, all forests stay consistent and keep their old nodes, data, parents and child orders. Without exchange, each node made is a new last child of the node at which the builder stands; the builder goes down at create_tree and comes back exactly if the closure returns, so after a caught panic later nodes go below the node whose closure panicked. With exchange a builder can come to hold an ID of another forest: add_child then panics with an internal-consistency message or attaches nodes to nodes it never made.", "quantifier": "all consistent forests, all builder states, all programs of closures of any nesting depth, all ID capacities", "why_tests_cant": "closures are arbitrary user code with arbitrary nesting of panics, recoveries and exchanges", "anchors": ["src/dynamic/forest/nest_builder.rs", "NestTreeBuilder::create_tree", "NestTreeBuilder::add_child", "NestTreeBuilder::root"]}
{"id": "C82", "title": "The crate as it is compiled", "statement": "C65 and C78 hold of the actual builds: a client of the whole interface, keeping iterators of all kinds, gets from a debug build (debug assertions, panics on usize overflow) and from a release build (no assertions, wrapping usize) exactly the answers of the naive implementation, provided the ID type has at most usize::MAX IDs; in a consistent forest every single call, promised or not, does the same in both builds. The condition is needed: with more nodes than usize::MAX the depths overflow, with a panic or a wrong depth.", "quantifier": "all clients, all call sequences with any iterators kept, both builds, all usize sizes, all ID capacities up to usize::MAX", "why_tests_cant": "it compares two compilations of the whole interface over all programs", "anchors": ["src/dynamic/hierarchy.rs", "src/dynamic/hierarchy/traverse.rs", "src/dynamic/forest.rs", "src/dynamic/forest/debug_print.rs"]}
{"id": "C83", "title": "Whole programs", "statement": "A program that keeps several forests and iterators over each of them, calls anything on them, copies trees from one forest to another while iterating over the source and clones forests, deciding each step by all answers seen, gets in a debug or a release build exactly the answers of naive lists of trees and lists of remaining items, up to the first call for which nothing is promised; and every promised call returns.", "quantifier": "all programs, all numbers of forests, all iterators kept, both builds, all ID capacities up to usize::MAX", "why_tests_cant": "it quantifies over all adaptive programs and interleavings of forests and iterators", "anchors": ["src/dynamic/forest.rs", "src/dynamic/hierarchy.rs", "src/dynamic/hierarchy/traverse.rs", "src/dynamic/forest/node.rs"]}
{"id": "C84", "title": "Exactly what an in-place insert destroys", "statement": "If insert is asked to put a node where it already is, in a consistent forest, then the data and all parents stay, exactly the answers of first_child_id, last_child_id, next_sibling_id and prev_sibling_id listed for the kind of request change (one or two of them) and no others, whether the call returns or panics; and a following detach of the node leads to the very forest that detach alone would have given, exactly if the request was not 'last child (not the only one) as the last child' or 'first child before the second one'.", "quantifier": "all consistent forests, all nodes, all in-place requests", "why_tests_cant": "it quantifies over all shapes of forests and all positions of the node in them, and says that nothing else changes anywhere", "anchors": ["src/dynamic/hierarchy.rs", "src/dynamic/forest.rs", "Hierarchy::insert", "Hierarchy::connect_triangle", "Hierarchy::detach"]}
{"id": "C85", "title": "The damage of an in-place insert can be repaired through the public interface", "statement": "If insert put a node of a consistent forest where it already was (and so corrupted the forest), a fixed short sequence of public calls repairs it: for the requests that detach repairs, detach the node and insert it again; for 'last child as the last child', create a scratch root, insert it after the node's former predecessor, insert the node before the scratch node, detach and remove the scratch node; for 'first child before the second one', create a scratch root, insert the node as the first child, insert the scratch root after the last child, detach and remove it. All these calls succeed, and afterwards every ID is alive or not, has the data and gives the answers it had before the damage, and the forest is consistent again.", "quantifier": "all consistent forests below capacity, all nodes, all in-place requests", "why_tests_cant": "it quantifies over all shapes of forests and all positions, and the intermediate states are corrupted forests on which no consistency invariant is available", "anchors": ["src/dynamic/hierarchy.rs", "src/dynamic/forest.rs", "Hierarchy::insert", "Hierarchy::detach", "Forest::remove", "Forest::create_root"]}
{"id": "C86", "title": "What even careless histories cannot do to sibling links, and what they can", "statement": "After any history whatsoever (in-place inserts, panicking hooks and clones, calls that panic half-way included), in debug and in release builds, no node is its own next sibling and a node without a parent has no next sibling. Nothing of the kind holds for the other links: there are histories of calls that all return Ok after which a node is its own previous sibling, parent, first child or last child, two nodes are each other's next sibling or first child, a root has a previous sibling, a live node has a removed next sibling, first child or parent, and a depth-first traversal never ends.", "quantifier": "all histories of calls, all nodes", "why_tests_cant": "the positive part ranges over all histories including those that corrupt the forest, where no consistency can be assumed", "anchors": ["src/dynamic/hierarchy.rs", "src/dynamic/forest.rs", "Hierarchy::connect_triangle", "SiblingsRange::transplant", "Hierarchy::detach"]}
{"id": "C87", "title": "Exactly what remove_hooked leaves behind when its hook panics", "statement": "If the hook given to remove_hooked panics at its k-th call, the forest left behind is the one in which the node was merely detached, with the first k nodes of its subtree in postorder torn out: these are dead, all other nodes (of this tree and of the rest of the forest) keep their data and all their answers, except that last_child_id panics exactly where the first child is dead and prev_sibling_id exactly where the previous sibling is dead. Unless the panic came from the last call, the leftover can no longer be removed: remove, remove_hooked and remove_hooked_panic_safe of the node panic without calling the hook and without changing anything.", "quantifier": "all consistent forests, all nodes, all hooks and panic points", "why_tests_cant": "it quantifies over all trees and all panic points, and says that nothing else changes anywhere", "anchors": ["src/dynamic/forest.rs", "src/dynamic/hierarchy/traverse.rs", "Forest::remove_hooked", "Forest::remove_hooked_panic_safe", "Forest::remove"]}
{"id": "C88", "title": "Loops over iterators do what they do on lists", "statement": "`for` loops and the provided methods of Iterator and DoubleEndedIterator (try_fold, fold, count, last, collect, nth, find, position and their counterparts at the back, rev() included) on any iterator of the crate, fresh or partly used, end, and have the results and take the items they would on the list of items the iterator has still to give; a loop that is left early, or whose body panics, leaves the iterator with exactly the items not taken. In particular collect() of a traversal is the documented sequence and count() its length.", "quantifier": "all sessions with any number of iterators, all consistent forests, all loop bodies, all lengths", "why_tests_cant": "it quantifies over all forests, all half-used iterators and all loop bodies, and claims termination", "anchors": ["src/dynamic/forest/traverse.rs", "DepthFirstTraverse", "ShallowDepthFirstTraverse", "Ancestors", "Siblings", "BreadthFirstTraverse", "AllocatingBreadthFirstTraverse"]}
{"id": "C89", "title": "Which calls can hang", "statement": "The look-ups, the accessors of Node, create_root, detach, writing data, making any iterator, peeking, and next/next_back of DepthFirstTraverse, ShallowDepthFirstTraverse, Ancestors and Siblings return or panic in every forest whatsoever, however damaged. In a consistent forest no call hangs, permitted or not. After any history at all, a call that is given no node of a damaged tree never hangs, in particular the tree builders; and copying a tree, damaged or not, never hangs. insert and create_insert hang only if the ancestors of the destination go round for ever, next of AllocatingBreadthFirstTraverse only if the children of some node go on for ever (the first call exactly if those of its start do), remove and remove_hooked only if after detach(x) there is an endless descent from first child to first child, printing to a sink that does not fail only if the depth-first traversal of the tree never ends. detach_single hangs only if, in the forest as changed so far, the ancestors of the parent of x or the siblings from its first child go on for ever; remove_hooked_panic_safe only if in the forest as it leaves it there is an endless descent from first child to first child; BreadthFirstTraverse, advanced fewer times than the largest depth value, only if some depth-limited shallow traversal of the forest never ends. All this holds in debug and in release builds. All other calls can hang: for insert and create_insert at each kind of place, NodeMut::create, adopt, try_adopt, detach_single, the remove functions, printing and next of both breadth-first iterators there is a history of calls that all return Ok after which the call never returns; copying a damaged tree can use up all IDs, and panics then.", "quantifier": "all forests, reachable or not (first part); all consistent forests and all calls; all histories; existence of histories for the negative part; debug and release builds", "why_tests_cant": "absence of hangs in every state of memory reachable by any history, damaged ones included, is not observable by running tests; and a test cannot tell a hang from a slow call", "anchors": ["src/dynamic/hierarchy.rs", "src/dynamic/hierarchy/traverse.rs", "src/dynamic/forest.rs", "transplant_would_make_cyclic_links", "BreadthFirstTraverser", "AllocatingBreadthFirstTraverser"]}
{"id": "C90", "title": "A copy is sound whatever the original is", "statement": "clone_local_tree* and clone_foreign_tree* replay the depth-first traversal of the original, read as brackets: after any history at all, even if the tree being copied has been destroyed by harmful calls, they add exactly one well-formed tree whose nodes have the next IDs in order, whose shape is the bracket structure of the openings and closings depth_first_traverse at the given node returns first, and whose data are clones of the data of the nodes opened; all other nodes, links and data stay as they were; the callback is told about exactly these pairs in order. Ok is returned with the root of the copy, exactly when the brackets are closed; the only reasons for a panic are a panicking callback, a traversal that panics or ends early, a datum that is gone or whose clone panics, no ID left, and (foreign only) a traversal that goes on after the brackets are closed. In each of these cases the part copied so far is a well-formed tree, too. They never hang. The same holds for a T::clone and a callback that change the state of the rest of the program: they are called in turn for the nodes the traversal opens, in order, T::clone before and the callback after the copy of the node is made, and the first panic of either, or running out of IDs, ends the call, with the state they left. Forest::clone of any forest, damaged or not, calls T::clone once for each datum in the order of the IDs and gives the same links and nodes with the data returned.", "quantifier": "all histories of the forest (and of the source forest), all nodes, clone functions (pure or with effects), callbacks and callback states", "why_tests_cant": "the damaged states a copy may start from are unboundedly many and the copy must be sound for each; the absence of hangs and of other reasons for a panic cannot be sampled", "anchors": ["src/dynamic/forest.rs", "Forest::clone_local_tree_with_id_mapping", "Forest::clone_foreign_tree_with_id_mapping", "src/dynamic/hierarchy/traverse.rs", "SafeModeDepthFirstTraverser", "DepthFirstTraverser"]}
{"id": "C91", "title": "Programs go on after damage, in both builds", "statement": "After any history of a debug or of a release build, including calls that destroy trees, the live nodes that are not in a damaged tree (C69) form a naive list of trees with the data and links they have in the forest; from then on every client of the whole interface that keeps iterators of all kinds and gives no live node of a damaged tree gets, in either build, exactly the answers of the naive trees, up to the first call for which nothing is promised. Calls of either build, and iterators kept across calls, depend only on the trees of the nodes given (C68). Copies of damaged trees are sound in release builds, too (C90).", "quantifier": "both builds, all histories, all clients and numbers of calls, all ID types with at most usize::MAX IDs", "why_tests_cant": "the damaged states are unboundedly many, and the claim is about every later program and every interleaving of its iterators", "anchors": ["src/dynamic/forest.rs", "src/dynamic/hierarchy.rs", "src/dynamic/hierarchy/traverse.rs", "src/dynamic/forest/traverse.rs"]}
{"id": "C92", "title": "Look-ups, iterator steps, detach and insert look at few nodes", "statement": "In every forest, however large and also after calls that have destroyed trees, and in both builds: is_alive, data and the accessors of Node, making a depth-first, depth-limited, ancestors or siblings iterator, and each call of its next, next_back, peek and peek_back depend on at most six nodes (one to four for the accessors, two for next, three for next_back, one for the peeks): any forest with the same contents at these nodes gives the same answer. So a client that makes n such calls depends on at most 6n nodes. The same holds with calls that change the forest: if each of n calls, chosen by the answers so far, depends on and changes at most k nodes of the forest on which it is made, then n k nodes determine all answers and all changes. detach depends on and changes at most nine nodes, a write through data_mut one; insert, try_adopt and adopt at most 28 nodes besides the destination and its ancestors (and no constant would do: with a destination that has n ancestors insert depends on more than n - 2 nodes). Among the forests that have issued as many IDs, create_root depends on and writes the new node only, and create_insert (NodeMut::create) at most 29 (30) nodes besides the destination and its ancestors. In a forest as it should be, detach_single depends on and changes at most 37 nodes besides the ancestors, the children and one more for each child, and at most 20 if the node is a root, a leaf or removed. (The first next of the allocating breadth-first iterator has no such bound.)", "quantifier": "both builds, all forests and IDs, all iterator states, all clients and numbers of calls; all forests that agree on the few nodes", "why_tests_cant": "a test runs in one forest; the claim compares it with all forests of all sizes that agree on a few nodes", "anchors": ["src/dynamic/hierarchy.rs", "src/dynamic/hierarchy/traverse.rs", "src/dynamic/forest/node.rs", "src/dynamic/forest/traverse.rs"]}
