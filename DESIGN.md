# Design of the formal model of treena (dynamic forest)

## Layout

* `lean/Verif/Model/*.lean` – executable model of the Rust code, function by function, each
  definition citing file and lines in `/repo`.
* `lean/Verif/Spec/*.lean` – small specification, independent of the arena: ordered forest
  ("shape": child lists + parent), rose trees, event lists, levels, rendering.
* `lean/Verif/Proof/*.lean` – helper lemmas (refinement, traversal lemmas, ...).
* `lean/Verif/Props/*.lean` – only the property theorems and their non-vacuity examples.

## How the code is modelled

* A node ID is the `Nat` returned by `to_usize`; an ID type is its capacity `cap`
  (`from_usize v` is `Some` iff `v < cap`).  `Model/NonMax.lean` models `NonMaxU*` on bit vectors and
  proves that this is what the five ID types do (C01).
* `Hierarchy` is a list of `Neighbors` records (the `Vec`), `Forest` is a hierarchy plus the list of
  `Option T`.
* A `&mut` function is a state transformer `σ → Res σ α`, where `Res` is `ok value state` or
  `fail f state`; `fail` carries the state reached *at the panic*, so behaviour after `catch_unwind` is
  expressible.  `Fail` is `panic msg` or `diverge`.
* `expect`, `panic!`, `assert!`, indexing out of bounds and `debug_assert!` are all `fail (panic _)`.
  (`debug_assert!`s are modelled as enabled; `Model/Release.lean` models the release build, and C63 shows that it
  does the same on consistent forests.)
* `while` loops get a fuel argument computed from the arena size, exhausted fuel being
  `fail diverge`.  For consistent forests we prove that `diverge` is never returned.  For all other forests we prove that
  more fuel does not change the result, so that `diverge` means that the real loop is endless (`Proof/Fuel*.lean`:
  `ancestorsMeet_fuel`, `rangeContains_fuel`, `rangeLoop_fuel`, `rewriteParents_fuel`, `pushChildren_fuel`,
  `nextLoop_fuel`, `nextInner_fuel`, `removeLoop_fuel`, `cloneLocal_fuel`, `cloneForeign_fuel`, and
  `printLoop_fuel` for sinks that do not fail).  The one exception is `debug_print` of a corrupted forest into a sink that
  fails after some time: the real loop ends with the sink's error, the model answers `diverge` when the fuel, quadratic in the
  size of the forest, is exhausted first; no theorem is about this case.
* Callbacks (`FnMut`) are stateful functions that may panic: `S → T → Except S S`.
* Iterators are pure state machines: `next : Hier → State → Except Fail (Option Item × State)`.

## Proof method

`Spec.Shape` is an ordered forest: `alive`, `parent`, `kids : Nat → List Nat`.  `Shape.Valid` says that
parent and kids agree, child lists have no duplicates, and every parent chain reaches a root.
`Repr h s` says that the arena `h` is the linked representation of `s` (field by field, including the cyclic
`prev_sibling_cyclic`).  Each mutator is proved to refine a two-line operation on `Shape` (`detach`,
`attach`, `splice`, `removeSubtree`, ...).  `Consistent f := ∃ s, Repr ∧ Valid ∧ data agrees`.
Everything about "every history" is then induction over a list of API calls.  Traversals are proved
equal to list functions on the rose tree of a node by induction on the tree.

## Trusted base

* **Lean 4.33.0's kernel.**  No axiom is added; no proof uses compiled code.  `#print axioms` of every theorem
  of the manifest shows a subset of `propext`, `Classical.choice`, `Quot.sound` (Lean's standard axioms; `decide +kernel` and
  `decide` are evaluated by the kernel itself).
* **The model.**  That the definitions under `Verif/Model` say what the Rust code does is established by reading; each
  cites file and lines.
* **The specification** (`Verif/Spec`), read as the meaning of the English properties.

### Modelled

All of `src/dynamic/hierarchy.rs`, `src/dynamic/hierarchy/traverse.rs`, `src/dynamic/forest.rs`,
`src/dynamic/forest/{node,traverse,nest_builder,chain_builder,debug_print}.rs`, `src/dynamic/anchor.rs`, `src/dynamic/id.rs`
(`from_usize` / `to_usize`) and `src/nonmax.rs` (`new`, `get`, `Default`, `Ord`), with these simplifications:

* Node IDs are natural numbers, an ID type is its number of values (justified by C01).  `Model/OwnId` has every public
  function with a user-defined ID type, with the conversions where the code makes them; C76 shows that with inverse conversions (all that
  `impl_dynamic_node_id!` makes) it does the same, so that the other properties are stated for the ID types of the crate.  `from_internal` and
  `to_internal` are assumed to be functions (no panics, no side effects), `Eq` to be equality.
* The machine's memory is unbounded: allocation does not fail, and the depth counters of the traversals have the bound
  `um` (`usize::MAX`) as a parameter.
* `while` loops have fuel (see above).  On consistent forests no loop runs out of fuel (C38).  On corrupted forests (which
  the API can produce, see Findings) running out of fuel is the result `diverge` and means that the loop is endless; the
  invariants that are proved for *all* histories (C03, C04, C34, C49, C50, C52) are proved for the loops with any amount of
  fuel, so that they also hold at every point of an endless execution.
* `T::clone` is a function of the cloned value (it may panic), except in `Model/CloneEffect` (C67), where it is an arbitrary
  computation on the state it shares with the callback; the callbacks of `remove_hooked*` and `clone_*_with_id_mapping`
  are arbitrary functions on their captured state and may panic at any call.  They cannot touch the forest (borrowed).
* Dropping a `T` does not panic, except in `Forest.removeDrop` (the model of `remove` with a panicking `Drop`; C40).
* `Forest::clone` (derived) is modelled three times: `T::clone` total (`clone`), panicking (`tryClone`) and effectful (`cloneE`); C67 relates the
  latter two.
* The builders own a mutable borrow of the forest; the model keeps the forest in the builder's state.  The nested-closure builder's
  closure is a script of `add_child` / nested `create_tree` calls that may panic at any point; in `Model/Wild` (C81) it may also catch panics and
  exchange builders.
* A `Node` / `NodeMut` is a forest and a live ID.
* `Debug` of `Forest` and of IDs (C75) is the text written to a formatter that does not fail; `core::fmt`'s builders (`DebugStruct`, `DebugList`,
  `DebugTuple`, `PadAdapter`) are written out in `Model/Dump`; width, fill and precision are ignored.

### Validation of the model

`Props/RepoTests.lean` runs on the model every documentation example of `forest.rs`, `node.rs`, `chain_builder.rs` and `nest_builder.rs`
that asserts something, and all tests of `/repo/tests` and of the `tests` modules except those about type sizes and function
addresses.  All pass (evaluated by the kernel).  They are tests of the model, not proofs of claims, and appear in no claim.

### Not modelled

* `Debug` of the iterators, proxies and builders, derived `PartialEq` / `Hash` / `Ord` of public enums, the lazy `Iterator` adapters of the standard library (`map`, `zip`, …; the consuming methods and `rev` are modelled, C88), formatter flags
  (width, `{:#?}`) inside `debug_print`, data formatters that never return. (Formatters whose behaviour changes from call to call: C80.)
* Running time and memory other than the step counts of the breadth-first iterators (C64) and the mutators (C79), memory layout (niche optimisation), `no_std`, thread safety.

## Known disagreements between code and documentation (found by the proofs)

See the end of this file (section "Findings").

## Properties

| id | model | proof |
|----|-------|-------|
| C01 | `NonMax` on `BitVec k`, usize width `w` | bit-vector complement arithmetic, all widths |
| C02 | `Forest.createRoot` | direct, plus refinement `Shape.addRoot` |
| C03 | histories of all mutators, including the state left by a panic | invariant over raw (possibly inconsistent) arenas |
| C04 | same | same |
| C05 | same histories | **false** for the code (in-place re-insert); negation by a concrete history, `_partial` for histories without in-place re-insert |
| C06 | same | **false** likewise: a history of legal calls produces a parent cycle; `_partial` as C05 |
| C07 | `Forest.insert` | refinement to `Shape.detach` + `Shape.attach`; `_partial`: excludes in-place requests, where the claim is false |
| C08 | `Forest.insert` | **false**: universal negation for every in-place request except only-child/FirstChildOf, which is proved |
| C09 | `Forest.insert` | ancestor-loop lemma |
| C10 | `Forest.insert`, `detachSingle`, `tryAdopt` | for raw states |
| C11 | `Forest.insert` | **false**: the code panics; proved: it panics and leaves the forest unchanged |
| C12 | `Forest.createInsert` | refinement |
| C13 | `Forest.detach` | refinement |
| C14 | `Forest.detachSingle` | refinement (`splice`) |
| C15 | three removal functions | refinement |
| C16 | same with stateful callback | tree induction: fold over postorder data |
| C17 | same with panicking callback | tree induction, state at k-th panic |
| C18 | same | representation is functional, so equal shapes give equal arenas |
| C19 | `Dft` | tree induction |
| C20 | `Dft`, `Shallow`, `Siblings` | generic deque lemma for a stepper over a duplicate-free list |
| C21 | `Shallow` | tree induction |
| C22 | `Bft` | level lemma on depth-limited events |
| C23 | `ABft` | queue invariant |
| C24 | `Ancestors` | induction on the parent chain |
| C25 | `Siblings` | deque lemma |
| C26 | all iterators | raw states |
| C27 | all iterators | raw states / queue invariant for `ABft` |
| C28–C30 | `cloneLocal`, `cloneForeign` | builder lemma: replaying the event list appends a relabelled tree |
| C31 | `Nest` with scripts | script induction |
| C32 | `Chain` | refinement to shape operations |
| C33 | `DebugPrint` | equal to recursive renderer for non-empty single-line data and any chunking (`_partial`); negation for multi-line and empty data |
| C34 | all mutators | raw states |
| C35 | `NodeMut.*` | definitional equalities lifted to all states |
| C36 | mutators | direct |
| C37 | traversals | counting on rose trees |
| C38 | all | corollary collection |
| C39 | `insert`, `detach` | functional representation |
| C40 | `removeHooked*` | witness + C17 |
| C41 | all mutators | one-step case analysis: consistent after iff not harmful; by induction the first harmful call of a history |
| C42 | all mutators | inversion of each failing branch |
| C43–C45 | `insert`, `detach` | shape operations compose; representation is functional |
| C46, C47 | `insert`, `detach`, removals | subtree membership under moves; representation is functional |
| C48 | `clone*`, `createInsert`, `remove` | copied block is exactly the removed subtree |
| C49 | all calls | naturality: mapping the data commutes with every call (`Spec/MapData`) |
| C50 | `NodeMut` | the live ID stays live under every call through the proxy |
| C51 | `Forest.clone` | special case of C49's naturality |
| C52 | all calls | invariant over all histories, raw states |
| C53, C54, C58 | traversals | counting on rose trees, parent chains |
| C55 | all mutators, `Dft` | a traversal is determined by the child lists below the node and conversely |
| C56 | `clone*`, all traversals, `DebugPrint` | relabelling of the rose tree commutes with traversal and printing |
| C57 | all mutators | from the refinement theorems |
| C59 | builders, `clone*` | all end in the same shape; representation is functional |
| C60 | all creating calls, histories | the capacity is compared only with the arena length (`Proof/Agree`) |
| C61 | `Forest` | a consistent arena is determined by its observations |
| C62 | `DebugPrint`, any data formatter (adaptive, failing) | for every text and splitting: output = data in preorder between drawing characters, one node per line; errors of formatters are reported |
| C63 | functions with a `debug_assert!` without it; depth arithmetic checked / wrapping at `usize::MAX` | release = debug: assertions dead for all states (traverser, writer) or on consistent forests; depths never exceed the number of nodes |
| C64 | breadth-first iterators instrumented with a step counter (`Model/Cost.lean`) | erasure of the counter gives the model's iterators; potential functions on the invariants give exact counts; lower bound on lines of nodes made by the builder |
| C65 | 29 kinds of calls of the public interface as requests, their observable answers, adaptive clients (`Spec/Plain`, with fault injection into hooks, callbacks and `T::clone`: a reference implementation on lists of labelled trees, and `Req.exec`, the same calls on the model) | forward simulation: every call preserves the relation *the links and data of the arena are the trees*, with equal answers |
| C66 | several forests in one program: creation, calls on each (as in C65), `clone_foreign_tree_with_id_mapping` between them, `Forest::clone` (`Spec/World`) | the simulation of C65 pointwise, with the outcome theorem of the foreign copy |
| C67 | `clone_*_tree_with_id_mapping` and `Forest::clone` with a `T::clone` that is an arbitrary computation on the state of the program (`Model/CloneEffect`); `replay` is the prescribed sequence of calls (`Spec/CloneEffect`) | induction over the source tree as for C28/C29, with the sequence of calls in the outcome; agreement with the effect-free models of C28–C30 and C51 by induction on the fuel |
| C68 | `SameIn Q f g`: two forests agree in a link-closed part `Q` (`Spec/Local`); every modelled call run on both | relational calculus `Loc` for pairs of runs (`Proof/Local*`), one lemma per function; framing with `Q` := what links reach from the IDs given; for consistent forests this is the tree |
| C69 | `taint`: the nodes of the trees given to harmful calls, and of those that later share a call with them; `Forest.without` marks them removed | invariant over histories (`Contained`, `Proof/Contain`): the rest is consistent, no link leads from live tainted nodes into it, all links are issued IDs; clean calls by locality and C05, tainted calls by framing |
| C70 | as C68 | a local action on one part leaves the other part the same (framing), so the second action answers the same and does the same there; pointwise comparison of the two results |
| C71 | `DebugPrint`, as C33 | the writer's calls emit exactly `Printed.print` (induction over pieces, then over the tree); equality with the picture forces, by counting newlines and comparing line lengths, the condition `OkTree` of C33 |
| C72 | all iterators | the step functions depend on the record of the node of the event and, backwards, of its first child or cyclic predecessor, which are within the limit (resp. subtree, path, row); so the item lists of C19-C25 carry over to any forest equal at these nodes |
| C73 | `create_root`, `remove`, `detach`, `insert(_, LastChildOf)` | take everything apart by detaching each live node, then append each child list in order; a well-formed shape is determined by its child lists; the converse is C05 and C52 |
| C74 | `Release.step`, the history semantics without debug assertions | the step differs from the debug one only in `remove_hooked_panic_safe`, whose release body has the same invariants (evolves, commutes with data maps, local); containment is proved for any tame step |
| C75 | `Dump`: `Debug` of `Forest`, `Hierarchy`, `Neighbors`, IDs; `Display` of `StructureError` | the text without blanks and line breaks is a prefix code for the hierarchy; for the data, indentation is undone line by line |
| C76 | `OwnId`: `NodeId`, `from_internal` / `to_internal` at every boundary | simulation: builders, callbacks' captured state and iterator items are mapped by `from_internal` |
| C77 | spec `Ledger`: data held / entered / left per call; `watched` hook that writes down what it is given | every removal keeps "list written ++ data held" up to order; induction over the history |
| C78 | `Pool`: clients with a pool of iterators of all kinds, `clone` copies the state | C65's simulation, with a relation between each iterator and the list of its remaining items |
| C79 | `Model/Steps.lean`: the mutators once more with a counter of calls and loop rounds; erasing the counter gives the model back (`C79_same_functions`) | exact counts by the inductions of C10/C14/C15/C30 carried out on the counted functions |
| C80 | `Model/FmtEffect.lean`: `debug_print` with formatters that are arbitrary terminating computations on the state they share with the sink | a watched formatter (keeps a diary, changes nothing else) is simulated step by step; for stateful labels a simulation against C71 on the forest with nodes as data |
| C81 | `Model/Wild.lean`: closures as programs of calls, panics, `catch_unwind` and `mem::swap` on a pair of builders | invariant "at most grown" for any builder state; without exchange, refinement of a log of `create_insert` calls (the builder's `current` is the last child of its `root` at every moment) |
| C82 | `Spec/Build.lean`: the calls of C65/C78 on the functions of `Model/Release.lean` (without assertions) with checked or wrapping depths | in a consistent forest every call is equal in both builds (C63); iterator invariant "the depths still to come are at most `usize::MAX`"; refinement as for C78 |
| C83 | `Spec/Session.lean`: the union of C66 (several forests), C78 (iterators) and C82 (builds) | pointwise refinement relation `Realm` between the lists of forests with their iterators; step lemma per deed |
| C84 | `Spec/Damage.lean`: `Damage` lists the changed accessor answers, `Slip` the seven kinds of in-place requests, `Lasting` the two kinds that `detach` does not repair | each in-place insert is shown to be one overwritten record (`Proof/Damage.lean`), its visible effect computed (`Proof/DamageSeen.lean`), and `detach` run on both forests (`Proof/Repair.lean`) |
| C85 | `Spec/Mend.lean`: `Restored` compares data and all accessor answers | the corrupted forests are described field by field (`Proof/Mend.lean`: `Is`), each repairing call is executed on that description, and the last forest has the records of the first |
| C86 | accessor answers of `Op.run`/`Release.run` from the empty forest | an invariant of single records, kept by every write whatever the outcome of the call (`Keeps` calculus, `Proof/Careless.lean`); the possibilities by executing histories in the kernel |
| C87 | `Spec/Wreck.lean`: `Wreck` compares all accessor answers with those of the merely detached forest | the records after the panic are those of the detached forest with a postorder prefix cleared; sibling order in the postorder excludes dead last siblings of live first ones; a second removal walks down the first children to the first dead leaf |
| C88 | `Model/StdIter.lean`: the default methods of std's iterator traits, which the crate inherits; `Spec/StdIter.lean`: the same loops over a list | an invariant 'the state has the items L left' kept by `next`/`next_back` (from C78), then induction on the list |
| C89 | `Spec/Hang.lean`: the calls without loops, endless ancestors | case analysis of all loop-free code in an arbitrary state (`Halts`, `HaltsM`); consistent states by the naive implementation (C65) and the exact results of harmful calls; damaged states by locality (C69); `insert` by unrolling the ancestor loop, fuel lemma; the other causes by turning exhausted fuel into an infinite chain (`follow_endless`, `openStep_forever`, `counter_forever`); the causes for `detach_single`, the panic-safe removal and both breadth-first iterators, and release builds (`Proof/HangDetach.lean`, `HangBuild.lean`, `HangBft.lean`, `Props/HangBuild.lean`); witnesses by histories found by search, evaluated by the kernel |
| C90 | `Spec/CopyAny.lean`: brackets of a traversal, the new tree alone, reasons for stopping | the new nodes lie in every separate part of the forest (C68), so the copy is made as in a forest that agrees with the real one there and has no live nodes; invariant of the copying loop with the stack of open nodes; the two traversers are shown to return the same events; `C90_ok` by comparing prefixes of the traversal; the same loop invariant with the calls made so far (`replay`) for a `T::clone` with effects (`Spec/CopyEffect.lean`, `Proof/CopyEffect.lean`) |
| C91 | `Spec/Salvage.lean`: histories, tainted nodes and clients of either build | locality (C68) of every call of either build and of every iterator that is kept: two forests equal in a separate part give the same transcript; the part without damage is a consistent forest (C69), of which C82 gives the transcript |
| C92 | `Spec/Looks.lean`: slots of a forest, forests that agree on slots, calls determined by at most k slots | a calculus of readers: a step that depends on j slots followed by one that depends on k more; the same for mutators with the slots they change; induction over the calls of a client; `insert`: the way up from the destination is assumed to stop within n nodes (`Forest.TopWithin`), fuel is shown not to matter; `create_*`: the same among forests with as many IDs issued; `detach_single`: a run in the well-formed forest is followed and shown to look at the path up and the children only, for any end of its longest branch (the two builds differ there); clients that change the forest: induction over their calls, the nodes of the later ones outside those of the earlier keep their contents |

`_partial` theorems and negations: C05, C06, C07, C08, C09, C11, C33, C38, C39 are `partial` because the full English claim is
**false of the code**; the counterexample is a theorem in each case and the partial theorem covers everything else.

## Findings

1. **Re-inserting a node where it already is corrupts the forest** (`transplant`, `hierarchy.rs` 839-849: the guards compare
   with the moved node itself, but the neighbours were already rewired).  Proved for *every* in-place request on *every* consistent
   forest, except `FirstChildOf` of an only child (`C08_insert_in_place_corrupts`), the one case the repository tests.
   `LastChildOf` of an only child panics half-way (`C38_false`).
   Exactly what is destroyed: C84; how to repair it with public calls: C85; what can and what cannot come of
   going on after it: C86 (a node can become its own parent, first child, ...; traversals can become endless).
2. **A history of calls that all return `Ok` can produce a parent cycle**; `ancestors` then never ends (`C06_false`).
3. Exactly these requests, and hooks that panic in `remove_hooked` before its last call (documented), destroy consistency
   (`C05_one_call`, `C41`).
4. `insert` next to a root panics instead of returning the documented `Err(SiblingsWithoutParent)` (C11); the forest is unchanged.
5. `create_insert` next to a root, or with a dead anchor, panics *after* creating a new orphan root (C12, C42); so does
   `ChainTreeBuilder::sibling` at the root (C32).  The comment "this won't panic" in `NodeMut::create` is wrong.
6. `remove*` of a dead node is silently ignored although the documentation says it panics (C18).
7. `Forest::remove` with a panicking `T::drop` leaves links to dead nodes, undocumented (`C40_remove_drop_panic_corrupts`).
8. The ID documentation says at most `MAX - 1` nodes; it is `MAX` (`C01_conversion`).
9. `debug_print` mis-indents multi-line data, depends on how a text is split into `write_str` calls, and omits nodes whose text is
   empty (`C33_false`).
10. `transplant_would_make_cyclic_links`: `prev_ancestor` is only updated after the range's parent has been met (line 890
   `continue`s past line 928), so that the check misses every new parent that is a proper descendant of the range
   (`finding10_range_check`, `finding10_missed`, `finding10_cycle` in `Props/Latent`).  Harmless: the branch is unreachable through the public API.
11. `create_insert` walks through all ancestors of the new parent, looking for the node it has just created; hence building or copying
   a line of `n` nodes takes time quadratic in `n` (`C79_create_insert`, `C79_clone_worst_case`).  The "more efficient"
   `remove_hooked` makes exactly as many loop rounds as `remove_hooked_panic_safe` (`C79_remove`); it saves a constant factor only.
12. A panic caught inside a `NestTreeBuilder::create_tree` closure leaves the builder at the inner node: later `add_child` calls go
   there (`C81_caught_panic_misplaces`).  The forest is consistent.
13. A `create_tree` closure can exchange its builder with one on another forest (`mem::swap`); `create_tree` then stores IDs of the one forest
   in the builder of the other, whose `add_child` panics with a "[consistency]" message or attaches nodes to unrelated ones
   (`C81_exchange_reaches_consistency_panic`, `C81_exchange_reaches_foreign_nodes`).
