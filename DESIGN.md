# Formal model of k0zmo/kl in Lean 4

Source under study: `/repo` (C++17 headers under `include/kl`, sources under `src`).
Nothing in `/repo` is built or changed. The model is a hand translation, function
by function; every model definition carries a comment with the file and lines it
follows.

## Layout

Each area `X` has a directory `lean/Verif/X/`:

* `Model.lean`  - translation of the C++ (each definition cites file:lines);
* `Spec.lean`   - small independent specification, not using model helpers
  (for tiny areas the spec is at the top of `Props.lean`);
* `Lemmas.lean` - auxiliary lemmas;
* `Props.lean`  - the property theorems, named `Cnn_*`, each followed by an
  `example` that shows the hypotheses are met by a non-trivial case.

`Verif.lean` imports everything. `MANIFEST.json` maps property ids to theorem names.

Conventions: a theorem whose English claim is only partly covered ends in
`_partial`. Where the code violates a property, the negation is proved with a
concrete witness (`..._violated`) next to the strongest true version.

## Trusted base

* The Lean 4.33.0 kernel. Axioms allowed: `propext`, `Classical.choice`,
  `Quot.sound`. No axioms of our own, no `sorry`, no `native_decide`/`bv_decide`.
* The fidelity of the hand translation (mitigated by line citations and by
  mutation testing, `seeded/LOG.jsonl`). An edit counts as caught when the proof of the
  theorem no longer checks and, for entries with a `method`, when an executable form of the
  statement itself was refuted on the edited model: that shows that the statement, not only
  its proof script, depends on the edited line. A second check: `lean/Verif/Conform` runs the
  models on the inputs of the repository's own unit tests and compares with the results those
  tests expect. These `example`s are tests of the models, not proofs of properties.
* C++ semantics assumed: 8-bit bytes, two's complement, 64-bit `size_t`; signed
  `char` where stated; critical sections under a mutex are atomic (what justifies this is C120: no data
  races, with a step for each access to an atomic variable or mutex); interleaving of the remaining
  modifications of atomic variables.
* Standard library, gsl, boost, rapidjson and yaml-cpp are modelled by their
  documented behaviour (lists, maps, JSON trees), not by their code. yaml-cpp's conversions of
  integers and Booleans are written out in `Serial/Yaml.lean`; its conversion of `double` is a
  parameter assumed to read back what it writes (so all NaNs count as one value).

## What is modelled, per area

| Area | Code | Model | Properties |
|---|---|---|---|
| Base64 | `src/base64.cpp` all | byte/character lists, `BitVec` tables | C01-C04 |
| BinaryRW | `binary_rw.hpp`, `binary_rw/*.hpp` | cursor over byte list, universe of type codes; any allocator; the same with pointers into blocks | C05-C10, C133, C137 |
| Path | `path.hpp`, `path.cpp` all | value string + (offset,length) table; with capacities and any allocator; as objects with blocks and pointers | C11-C16, C140, C141 |
| Tracker | `resource.hpp` modification_tracker | string keyed maps, notification histories | C14, C17, C18, C138 |
| Signal | `signal.hpp` | small-step interleaving machine; heap of slots, locks as atomic sections | C19-C29 |
| Resource | `resource_op.hpp` | typed value trees with attributes, declarations of recursive structs | C30-C40, C70-C74, C135 |
| Serial | `detail/serialization.hpp`, `json.hpp`, `json.cpp`, `yaml.hpp`, `yaml.cpp`, `serialization_attributes.hpp` | JSON and YAML trees, universe of type codes | C41-C52, C75-C93, C127, C128, C143, C144 |
| Rest | `resource_op.hpp` with `detail/serialization.hpp`; `serialize_at_path`, `deserialize_at_path` | the two models together | C94-C100 |
| Targets | `signal.hpp`: destruction of slot targets | stack machine of destructors over an ownership graph | C103-C105 |
| Lifetime | `json.hpp`, `detail/serialization.hpp`: what memory documents and objects use | documents with allocators, strings by pointer or copied; programs over them | C106, C107 |
| Custom | `serialization.hpp`: dispatch to `serializer<T>`, ADL overloads and the library's | types with arbitrary functions of users at every node; overload resolution | C108, C109 |
| JsonText | `json.hpp`: `dump`, `pretty_dump`, `parse`, with rapidjson's writers and reader | bytes; writer with levels; recursive descent reader; grammar of RFC 8259 as relations | C131 |
| Handles | `signal.hpp`: `connection`, `scoped_connection`, `blocker` | objects with owners, slots with counts and reusable addresses; destruction as a list of actions | C134, C136 |
| Floating | `json.hpp`: reading and writing `float` and `double` | IEEE 754 conversions on bit patterns; numbers counted in units of 2^-1074 | C132 |
| YamlNode | `yaml.hpp`, `detail/serialization.hpp`: which nodes objects and YAML documents share | memory of yaml-cpp nodes: handles refer to nodes, nodes to cells | C110, C111 |
| Macros | `detail/macros.hpp`, `reflect_enum.hpp`, `reflect_struct.hpp`: the macros | texts of tokens; macros as functions on texts, calls separate arguments again | C112, C113 |
| Args | `signal.hpp`: arguments of emissions, overloads of `connect` | cells of a memory; parameters copy, move or refer; bodies of slots are programs | C114, C115, C129 |
| Types | `utility.hpp`, `meta.hpp`, `type_traits.hpp` | functions on a language of types | C116 |
| Overload | `match.hpp`; `json.hpp`, `yaml.hpp`, `detail/serialization.hpp`, `detail/concepts.hpp`: which overload is called | candidates with ranks of conversions; best viable candidate | C117, C118 |
| Bounds | `serialization_attributes.hpp`: `range`, `greater_equal`, `less_equal` | arithmetic types with the usual arithmetic conversions; floating-point numbers as multiples of 2^-1074 | C119 |
| Races | `signal.hpp`: data races, deadlocks, reference counts | interleaving machine with a step for each access to an atomic variable or a mutex, and a trace of accesses to ordinary memory | C120-C124, C126 |
| Enums | `enum_set.hpp`, `enum_reflector.hpp`, `enum_traits.hpp`, `enum_range.hpp`, `iterator_facade.hpp` | bit vectors, tables | C53-C58, C68, C69, C150, C151 |
| Hash | `hash.hpp` | 32-bit vectors | C59, C60 |
| Text | `split.hpp`, `stream_join.hpp` | lists of characters; joiners as objects with references | C61, C62, C142 |
| Zip | `zip.hpp`, `tuple.hpp`, `range.hpp` | iterator tuples over lists; expressions with what their iterators refer to | C63, C130 |
| ExcInfo | `exception_info.hpp` | heap of linked nodes, also reference counted; class hierarchies as trees | C64, C101, C102, C145 |
| FileView | `file_view_unix.cpp`, `file_view_win32.cpp` | system-call outcomes and event traces | C65 |
| Defer | `defer.hpp` | statement language with scopes | C66 |
| Ctti | `ctti.hpp`, `reflect_struct.hpp` | hierarchy trees | C67 |

Not modelled: the text syntax of YAML (yaml-cpp), how rapidjson prints and reads `double`s (a parameter of C131),
floating point arithmetic elsewhere (floats are opaque atoms),
allocation failure outside C133, C138-C140 and C143-C145, weak-memory reorderings other than those of loads (`Races`: a load may give any value).

## Plan per property

* **C01-C04** encode/decode as list recursions on groups of 3 bytes / 4 chars.
  Table facts are finite (all 256 bytes / 64 sextets) and checked by the kernel,
  lifted to all strings by induction on groups. Acceptance (C03) against a spec
  that only mentions alphabets and lengths.
* **C05-C10** universe `Ty` of type codes with a value interpretation; writer and
  reader defined by recursion on codes; round trip by induction on the code;
  cursor invariants by induction over arbitrary operation lists.
* **C11-C16** the (offset,length) representation is refined to a list of segments
  by an invariant; `set` is proved equal to a fold specification on segments.
  `Path/Failed.lean`: which error a bad text gets (`C12_which`) and exactly what a throw leaves
  (`C16_exact`, `C16_consistent_iff`).
* **C17, C18** induction over notification histories against a declarative
  "latest concerned notification" spec; uses injectivity of prefix strings (C14).
* **C19-C29** `Signal/Model.lean` is a small-step machine of `n` threads. One step is one
  access to an atomic variable or one critical section. Slot bodies are arbitrary: in user mode
  a thread may do any operation, including nested emissions. Freed slots stay marked dead, so
  that touching one is the outcome `ub`. `Signal/Spec.lean` says what a history of events means
  (order, connectedness, blockers) without pointers. `Signal/Inv.lean` is the invariant
  (reference counts = references held; lists linked and duplicate free; each emission's
  remaining part is a suffix of the list at its begin). `good_step` proves it for every step,
  `reach_inv` for every reachable state. Properties follow in `Signal/Props.lean`.
  Simplifications: `connect` with adapters is the base overload; slot numbers are not reused;
  destroying a slot's target runs no user code (C103-C105 are about that); counters do not overflow; the return values of
  slots are not modelled.
* **C30-C40, C70-C74** `Resource/Model.lean` is a deep embedding: a type is a tree of scalars,
  optionals, structs, maps and sequences, with the attributes of each field; values are trees;
  user code (validators, deserialise, patch, key comparison) is an arbitrary environment `Env`.
  A node is an address; `set` at an address is the assignment through the reference. A step
  that C++ could not take on a well-typed value is the outcome `stuck` (excluded by C71).
  `Resource/Spec.lean` says by inductive relations what a path names (`Leads`), what is
  protected, which values are valid and what it means to change one sub-object, without the
  recursion of the code. `Ops.lean` proves for each verb a table of rows (`PutRow`, `PostRow`,
  `DelRow`) covering every execution; the properties are read off the rows.
  Hypotheses: `Typed` (user code returns values of the type), `Polite` (it throws only
  validation_error / deserialize_error; only for status tables), `Lawful` (key `==` implies
  equality, key_matches looks at the key only), `Plain` (a key matches one segment).
  Simplifications: validators do not mutate; recursive types are in C135; a child key is a
  reflected member; fields have fixed names; `get`'s serialisation is a parameter `dump`.
* **C41-C52, C75-C85** `Serial/Model.lean` is a deep embedding: a type is a tree of leaves,
  enums, enum sets, optionals, vectors, fixed arrays, string maps, tuples and records with the
  attributes of each field; `serialize`, `dump`, `deserialize` and `patch` are recursions on it.
  They are generic over a backend (`Backend`: how leaves are written and read); `Lawful` says
  what the proofs need of it and `json_lawful` that JSON (`Serial/Json.lean`) has it. Validators
  are an arbitrary environment. `tyOk` is what the static assertions demand. `Serial/Spec.lean`
  says by relations what a field reads, writes, keeps and blames, in terms of first members of
  a name, `allNames` and indices, without the loops. Main theorems are structural inductions on
  types: `ser_back` (round trip), `ser_decides` (when writing succeeds), `dump_eq`,
  `deser_record_obj`, `deser_record_arr`, `patch_record_obj` (equivalences for records),
  `ser_unique`, `patch_again`, `patch_keeps`, `deser_legit`, `explains`/`blames_throws` (error
  texts), `patch_explains`/`patch_throws` (those of patch), `reservedNames_logic` (which name
  collides), `deser_kind` (exceptions), `deserFields_agree` (unknown members), `same_le` (order of
  members: induction on the reordering, then on the type).
  Simplifications: floats are opaque atoms; string leaves are byte strings; a document is a
  tree (its text is C131); recursive types are in C128. `Model.lean` gives results; what a call that
  throws leaves in its target is modelled in `State.lean` (C91-C93).
* **C86-C88** `Serial/Yaml.lean` is the YAML backend. Its `add_field` assigns instead of appending,
  so it is not `Lawful`; `ser_appending` (`Serial/Append.lean`) shows that it writes what an
  appending backend would write, because the names written are distinct (`ser_unique`), and
  `deser_appending`, `patch_appending`, `dump_appending` that nothing else depends on it. The
  grammar of numbers (`Serial/YamlText.lean`) is inductive and independent of the parser.
  `ser_relabel` (`Serial/Translate.lean`): backends differ only in scalars. Plain `char`, which
  yaml-cpp treats as a character, is not modelled.
* **C89, C90** `Serial/Builder.lean`; the extractor's index is explicit state, histories of calls
  are lists, the position of each call is characterised by a recurrence (`Spec.Positions`).
* **C91-C93** `Serial/State.lean` models `deserialize` and `patch` as state changes of the target,
  with the exception beside the state. `StateLemmas.lean` shows that results and exceptions are
  those of `Model.lean`; `StateTyped.lean` that the target keeps its type; `StateProof.lean` and
  `StateKeep.lean` where the change stops (`Spec.Stopped`, `FieldBreaks`, `SlotBreaks`,
  `PatchBreaks`). Allocation failure is in C143.
* **C94-C100** `Rest/Model.lean` puts the two models together: a resource whose bodies are documents.
  The resource model and the serialization model each code the C++ types as far as their header
  sees them; `Table` holds what only serialization sees, `serTy`, `view` and `back` translate.
  `Rest/Link.lean` shows that translating there and back changes nothing (`view_back`,
  `back_view`) and that serialization meets what the resource theorems assume of user code
  (`env_typed`), so their hypotheses become theorems; `Rest/Holds.lean` that every operation keeps
  objects in the common part. Theorems of C30-C39, C70-C74 and C41-C52, C75-C93 then combine. C97
  is an induction over the path beside `Kept`; C98 needs that no name collides anywhere in the
  type (`leads_checked`); C100 that navigation and validation do not look at the table
  (`visit_env`, `validate_env`).
* **C151** `Enums/CastRange.lean`: the other casts to enumerations, on integers, with the values of C150; `ShiftLeft.lean`: `<<` of a single flag.
  `KindOf.lean`: the number of bits from the enumerators, proved least, for C150 and C151.
* **C150** `Enums/SetRange.lean`: expressions of the operators of `enum_set`, with the cast back to the enumeration undefined for values that the
  enumeration does not have. The width and the sign of the type in which they compute are arbitrary, as the compiler chooses. For fixed types
  only that the cast is defined; the conversion to narrow ones is in C53.
* **C53-C60** bit-vector algebra; finite tables; induction on lists.
* **C61-C67** direct list/trace inductions. C64: `ExcInfo/Shared.lean` gives the meaning of all
  histories with copies by a sheet of cells per object (no links); `step_shared` is the simulation.
* **C101, C102** `ExcInfo/Throw.lean`: a class is a tree of bases, a subobject a route in it,
  `dynamic_cast` finds the only subobject of a name. The specification counts subobjects
  (`Only`, `Lacks`) instead of searching. Access control and virtual bases are not modelled; what
  `<<` writes is an arbitrary function; texts are lists of characters.
* **C103-C105** `Targets/Model.lean`: slots with reference counts and what their targets own
  (connections, scoped connections, signals), signals with list, mutex, emission count. Destruction
  is a stack of actions (`release`, the destructors, `slot_state::disconnect`, the loops of
  `disconnect_all_slots` and `cleanup_invalidated_slots_locked`, unlocking); `step` does one and puts
  what it entails in front. `relock` (a thread locks a mutex it has), `misuse` (a signal is destroyed
  while it is emitted) and `ub` are outcomes. `Targets/Spec.lean` says who refers to whom and what
  leads to what. `Targets/Inv.lean`: reference counts are the references in lists, held, owned and on
  the stack; a mutex is locked iff the stack has one action that unlocks it (`step_inv`).
  `Targets/Exec.lean`: a lexicographic measure decreases (`step_smaller`), so executions end;
  operations keep the invariant (`reach_inv`). `Targets/Order.lean`: the graph only shrinks, and
  nothing above the end of a critical section leads to its mutex (`step_ordered`); while connections
  are destroyed, the list's reference released under the mutex is never the last (`exec_calm`).
  `Targets/Tidy.lean`: a list with slots that are not connected is cleaned at the end of the last
  emission (`step_tidy`).
  Simplified: one thread; destructors only destroy; lists of slots are lists (`Signal/Inv.lean` shows
  that they are); swap and move are left out.
* **C106, C107** `Lifetime/Model.lean`: a `rapidjson::Value` is a tree whose strings are pointers,
  copies in an allocator, or inside the value; objects are trees with `string_view`s,
  `StringRefType`s and views; a program parses, serializes, builds, deserializes, moves and destroys.
  Use of memory that is gone is the outcome `ub`. `Lifetime/Spec.lean`: what an object says (`Says`),
  what reading a value as a type gives (`Fits`), what is handed over by pointer (`lends`).
  `Lifetime/Inv.lean`: all of a document is in its allocator but for strings that are static or lent
  (`runs_inv`); documents do not change (`runs_stays`). `Lifetime/Reads.lean` and `Fits.lean`:
  what `deserialize` refers to is part of the document, at its place. Simplified: attributes other than
  `flatten`, `extra_fields`, `skip_serialization`, `allow_missing` are left out; maps keep members with
  equal names; rapidjson's constructors are modelled, not its code; documents are not edited.
* **C108, C109** `Custom/Model.lean`: every node of a type has the functions a user supplied for it, as
  members of `serializer<T>` and as ADL overloads; `select` and `Hooks.onPatch` are the overloads by
  `priority_tag`, `resolve` is overload resolution between the user's template and the library's.
  `write`, `dump`, `read`, `patch` follow the library's overloads and call the dispatcher for parts where
  the code does. `Custom/Spec.lean`: `Faithful`, `Agrees`, `PatchFaithful` ask of every customised part
  that its functions fit together. `Round.lean`, `Same.lean`, `Patch.lean`: induction over types.
  `Compiles.lean`: which `static_assert`s are reached. Simplified: fields have a name and `flatten`; a
  custom `deserialize` does not see the old value; users' functions compile; types that belong to
  two of the library's categories at once are not considered.
* **C110, C111** `YamlNode/Model.lean`: a `YAML::Node` is a handle to a node, which refers to a cell;
  assigning to a bound handle redirects the node it refers to. `read`, `patch` and `write` follow the
  library's overloads over such a memory. `YamlNode/Spec.lean`: trees, `Reads` (a node reads as a tree),
  `ofTree`/`toTree` (reading and writing without memory), `Edit` (what programs do to documents later).
  `Frame.lean`: reading redirects only nodes that views were bound to. `Read.lean`: the result means
  `ofTree` of the document. `Write.lean`: writing adds nodes only; a container under construction is
  referred to by nobody else. `Edits.lean`: parts of memory that do not use each other stay independent.
  Simplified: map keys are strings, field attributes are left out, nodes are never freed, scalars are
  texts a type takes or not; yaml-cpp's node classes are modelled from its headers.
* **C112, C113** `Macros/Model.lean`: a text is a list of tokens, a parenthesised group is one token. A
  macro is a function of the texts of its arguments; a call inside the body of a macro separates its
  arguments again after the parameters were replaced, as the preprocessor does, so commas that come
  in with an argument count. `Macros/Spec.lean`: the documented expansions, and the ways to write
  lists (`Written`), enumerators, fields and bases. Proved by following the calls; the loops
  (`BOOST_PP_REPEAT`) by induction. Trusted: Boost.Preprocessor does what its documentation says.

* **C114, C115** `Args/Model.lean`: values live in cells; initialising a parameter copies, moves or binds a
  reference, depending on the kind of expression (`binds`, `bindOne`). An emission binds its own
  parameters, `std::function` binds new ones by name for each slot, and adapters forward them. Bodies
  are programs over the cells they can name. `frame`: a run changes only cells it can reach as
  non-constant; hence the emission's own parameters stay intact between slots (`Intact`), which gives
  `Delivers` (Spec). Lifetimes: `Life` is the automaton of one object; `lives`, `keptAll`, `no_ub` by
  induction on the run. Fixed lists of slots, one thread, no exceptions.

* **C129** `Args/Count.lean`: the state of `Args` counts copies and moves where parameters are initialised (`bindOne`). The spec
  adds up, over the calls of slots in the trace, what each pair of declarations costs (`toSlot`); induction on the run.
* **C130** `Zip/Borrow.lean`: expressions have a class of types, are constant or not, lvalues or rvalues, and have iterators that refer
  to named or temporary objects. Class template argument deduction and overload resolution of `kl::range` are candidates with a best one;
  `zipped` is its `static_assert`. `Dangling` says which expressions refer to temporary objects.
* **C131** `JsonText/Model.lean`: rapidjson's `Writer` and `PrettyWriter` as a machine over what the stream backend calls, its reader as
  recursive descent with fuel (the length of the text is always enough). `JsonText/Spec.lean` is the grammar of RFC 8259 as inductive relations
  between texts and documents, with UTF-8 and surrogate pairs. `Reader.lean` (every text is read) and `Sound.lean` (nothing else is) are inductions on
  derivations and on fuel; `WriterLemmas.lean` (the output is a text of the document) and `Layout.lean` (exact output) are inductions on
  documents with a writer in any state; `Scalars.lean` shows that serialised integers fit. Integers beyond 64 bits are doubles; duplicate
  names are kept, as rapidjson does.
* **C132** `Floating/Model.lean`: the conversions `float` to `double`, `double` to `float` and integer to `double` as functions on bits, by one
  division with rounding whose carry runs through exponent and infinity. `Nearest` (Spec) compares numbers only, with the meaning of patterns
  from C119; `C132_unique` shows that it determines the number. `Lemmas.lean` is about magnitudes in any format, `Formats.lean` adds signs.
  A finite `double` beyond the range of `float` is taken to become infinite (IEEE 754); the C++ standard leaves it undefined.
* **C148** `Locks/Nested.lean`: sections in which targets are destroyed, with what their destructors do, nested (C104 is about one thread and
  which targets are destroyed there; here any section may contain any calls). Lock ordering: `Coarse.Ranked`, induction on levels.
* **C147** `Locks/Model.lean`: mutexes and threads with arbitrary sequences of commands, once with both mutexes taken at once (as in
  `Races/Model.lean`) and once with `lock`, `try_lock`, `unlock` as inside `std::scoped_lock`, either mutex first; the sequences of the calls of
  signals. `Lemmas.lean`: simulation both ways (`Fine.abs` takes mutexes that may be given back as free), and that where one command can be
  done one gets done. Data protected by the mutexes is not in this model (C120 has it); targets run between the sections.
* **C149** `ExcInfo/Parallel.lean`: C146 without taking a call as one step, for all calls but `unset`: allocation, each change of a count, linking,
  destroying and each step of a loop interleave. Threads may do these steps in any order, which covers what the code does; counts change
  atomically and in one order for all threads (the acquire and release of `shared_ptr` are trusted). Linking requires a count of one; `set`
  has it as it links a node just made (`C149_private`). Accesses to `head_` itself are excluded by the rule about objects, not proved.
  `Finish.lean`: threads can always get done, by a measure of what is left to release.
* **C146** `ExcInfo/Threads.lean`: the accesses that are not atomic of each call, to objects and nodes of `Owner.lean`. What a call destroys
  only objects lead to that it changes (from `C145_when`), so no object of another thread. Simplified: a call is one step, a node one location.
* **C145** `ExcInfo/Owner.lean`: the nodes with reference counts, every copy, assignment and end of a `shared_ptr` in the order of the code;
  using a destroyed node is `ub`. `OwnerLemmas.lean`: the counts are right (`Inv`), `release` by induction along `next_`; `OwnerProof.lean`:
  every operation keeps the invariant and is simulated by `Model.lean`, which destroys nothing.
* **C144** `Serial/DumpRun.lean`: `dump_adl` with what was written kept when it throws (events and exception). `DumpRunLemmas.lean`: equal
  results to `dump`; what is written is completed by closing brackets (`Fine`, mutual induction); a reader of events with a stack shows that
  nothing else completes it.
* **C143** `Serial/Trail.lean`: the list of all states a target goes through (`deserTrail`, `patchTrail`), after the loops of the code; an
  assignment is one step. `TrailLemmas.lean`, `TrailPatch.lean`: ends, types and what is kept all along (`Good`); `TrailResume.lean`: the
  same call made again from any of the states has the same result, by mutual induction (patch uses C45's `patch_again`);
  `TrailOrder.lean`: exactly which states occur. Nothing in the library catches `std::bad_alloc`, so it leaves one of these states.
* **C142** `Text/Objects.lean`: both joiners with what they refer to, in a world where containers, buffers and streams change and go.
  `ObjectsSpec.lean` says everything by what has happened so far (`contents`, `between`, `lineage`, `text`, `Safe`); `Agrees` holds by
  induction (`run_agrees`). `Relay` describes passing a joiner on; `copyAlgorithm` is `std::copy`, which takes it by value.
* **C141** `Path/Objects.lean`: objects of type `path` with the block their segments are in, the copy and move operations the compiler
  writes, and views as pointers. `Inv` (every object has its own memory, there is no other) by induction; each operation is then shown to
  do what `Turns` in `ObjectsSpec.lean` says of plain values, and to leave memory of other objects alone, hence `C141_views`.
* **C140** `Path/Alloc.lean`: `path::set` with the capacities of both containers; memory is asked for only when something does not fit.
  Because of `reserve` the text never grows in the loop (`push_eq`), so the loop is that of `Model.lean` up to the array of segments.
  `Enough` in `AllocSpec.lean` says by locations on the way when nothing is asked for (an equivalence).
* **C139** `Resource/Alloc.lean`: the verbs of C30-C39 once more, with an allocator that is asked at every step that may allocate (key of
  `find_key`, candidate, backup, moves that are not `noexcept`, `push_back`, tracker entries, text of a conflict). `Ends` compares each
  request with the one of `Model.lean`, `Effects` the value after a history; proved by going through the verbs side by side.
* **C138** `Tracker/Alloc.lean`: the tracker of C17/C18 with an allocator, which is any automaton, asked once per new entry. `Counts` says
  what a call counts for; shown by seeing that a loop that is left after `k` entries has done what a complete call for the first `k - 1`
  segments does.
* **C137** `BinaryRW/Mem.lean`: memory is blocks of bytes, a pointer is null or a place in a block, and `memcpy` is undefined for null
  pointers (also for no bytes), outside of a block and for overlapping regions. `PCur.abs` is the list cursor of a cursor in memory; each
  function is shown to do what its list version does, with `Same`: no byte outside of the named region changes. `C137_read_undefined` and
  `C137_write_undefined` say exactly when a copy is undefined.
* **C136** `Handles/Block.lean`: blockers are objects of the same world (`isB`), with a counter `blocks` per slot in 32 bits. Every function is
  written out again with `block`/`unblock` where the code has them; `BRun` is destruction with `~blocker` among the destructors. Shown in
  `BlockOps.lean`: without the counter each function is the one of C134 (`Good.does`), the counter is the number of blockers modulo 2^32
  (`BInv`), and the only other outcome is a failed `assert`, which needs 2^32 blockers of one slot.
* **C134** `Handles/Model.lean`: connection objects are variables owned by the client or by the target of a slot; releasing the last reference of
  a slot destroys what its target owns, which releases further slots. `Run` works off the list of these actions, `Does` is one call of a function
  with undefined behaviour as outcome `none`. `Handles/Spec.lean` has the rule (`Allowed`) and, without counts, what each function leaves in the
  objects (`Post`). The invariant `Inv` (`Handles/Lemmas.lean`) says that the count of a slot is its list reference plus the connections that
  refer to it plus the releases still to be done, and that every object to be destroyed is to be destroyed once; the number of living objects,
  times 3, plus the releases still to be done decreases, so destruction ends. Identity follows from the number of the call of `connect` that
  is kept with every slot and connection as a ghost. Left out: other threads, mutexes, the list of the signal itself (C103-C105), targets
  that do more on destruction than destroy connections, blockers (same code as connections).
* **C133** `BinaryRW/Alloc.lean`: the reader of C05-C10 with an allocator, which is any automaton; exceptions are outcomes of their own, with
  what the destination holds then. `agrees_read` (induction on types) compares it with the reader without memory; `paid_read` pays every request
  from the bytes consumed: a value leaves at least one payment over, which pays for the node of the container it goes into.
* **C116** `Types/Model.lean`: templates are functions on types, `none` is a program that is rejected.
  `Callable` (Spec) says what can be called, `C116_func_traits` and `C116_func_traits_only` that
  `func_traits` describes it and nothing else; the rest by induction on lists of types.
* **C117** `Overload/Core.lean` has the rule of overload resolution (`best_iff`: the candidate better than
  every other, found whatever the order), `Overload/Match.lean` the ranks of parameters for an lvalue. The
  conversions between types are an arbitrary function. Not covered: how handlers are copied into the
  `overloader`, and that `auto` drops references from what a handler returns.
* **C118** `Overload/Library.lean` lists the candidates of `json.hpp` and `yaml.hpp` for a type. The space of
  types is finite except for classes, which are all combinations of the members that the traits ask for.
  `meant` and `classRead` are the specification. Types of elements are not followed (C108, C109 do that).
* **C119** `Bounds/Model.lean`: `value < min` with the usual arithmetic conversions (integral promotion,
  wrapping, rounding to nearest even); IEEE numbers are decoded from their bits. `C119_less` compares with the
  order of the numbers themselves, for the pairs of types in `Safe`; `C119_sharp` has a counterexample for each
  other pair. `C119_short`, `C119_nearest` and `C119_tie` are the specification of the rounding. `C119_serial`
  and `C119_field` connect with `Verif/Serial`: there the attributes have bounds of the type of the field, and
  any other one is a user's validator.
* **C120-C123** `Races/Spec.lean`: actions of threads, happens-before (order of a thread; mutexes; reference
  counts decremented with `acq_rel`; `sender_` stored with `release` and exchanged; whatever users do to pass
  references between threads), `Race`. The mutex is an object too: making it writes it, calling `lock` reads it before
  the lock has any effect (without that, mutants showed, no proof needed the `release` and `acquire` of `sender_`).
  `Races/Model.lean`: threads with their place in the code, one step per
  atomic or mutex access; each step appends to the trace which members, links and slots it reads and
  writes. `Inv.lean`: for every access, who knows of it (has it in their past): whoever holds the mutex, or will; the
  holders of references to the slot, or whoever decrements its count next. `Prims*.lean`: every primitive keeps
  this, if the thread may do it; `Threads.lean`: what a thread holds at each point of the code; `Steps*.lean`,
  `Reach.lean`: every step of the code keeps both and is not undefined. `Progress.lean`: a measure of what is left of
  a critical section. `Leak.lean`: every slot that exists is referred to; `lost` is what C27_leak leaves. `Calm.lean`,
  `Gone.lean`: slots stay disconnected. `Owners.lean`, `Mutex.lean`: whoever the model says holds a mutex is the owner
  according to the trace (`owner`, `MutexOk`). Simplified: lists of slots are lists; signals are not destroyed (see
  C124); destroying a target runs no code of users; counters do not overflow; `std::scoped_lock` takes both mutexes at
  once; `give`, `take`, `publish`, `learn` are the only ways to pass references to other threads.
* **C124** `Races/Destroy.lean`: the machine of C120 has no step that destroys a signal; the theorem puts an action that
  writes its members and its mutex into an execution, after the last critical section of `~signal` (`putAt`,
  `Insert.lean`), and lets the execution go on without the signal (`forget`). `Guards.lean`: whoever holds a mutex has
  all earlier calls of `lock` in their past, so the action comes after all uses. `Unused.lean`: once nobody
  refers to a signal nobody ever does again. `Empty.lean`: `disconnect_all_slots` leaves an empty list. Its
  hypothesis `Unused` is about what threads and slots refer to at that moment, not about the future.
* **C125** `Resource/AtPath.lean`: which instantiations of `visit_node` a type needs (`visitCompiles`), for results that
  can be stored and for `void`; `TypeReaches` says independently which types paths lead to. `C125_dump_iff` is by
  induction on the type.
* **C126** `Races/Clean*.lean`: for every thread what the code it still has to run will clean up (`Code.cleans`,
  `RestOk`: a slot of a list that is not connected to the signal is ahead of somebody's clean-up, or `deferred` is set
  while an emission is active, or its disconnector waits for the mutex); kept by every step (`stepCode_local`).
  `Seen.lean`: whoever holds the mutex has the last store to `sender_` of each slot of the list in their past, so the
  loads of the clean-up (`Mem.seen`) cannot be outdated. `Tidy.lean`: the theorems.
* **C127** `Serial/NameCheck.lean`: the validators with their two passes, the fixed buffer and `cstring_equal` on zero
  terminated texts; leaving the buffer or a text is an error (`Bad`). The spec is `Nodup` of the names of C78, cut at the
  first zero. By induction on fields: the first pass counts at least what the second pushes.
* **C135** `Resource/Rec.lean`: the same for resources. `Upto s n t` says that two codes agree for `n` levels, `Within n v` that a value has at
  most `n` levels. `RecUpto.lean` shows that navigation, validation and typing give the same on codes that agree as far as the value goes,
  and that a visit ends at codes that agree for the rest. From this every verb settles (`RecVerbs.lean`), however deep the body is; the
  theorems about finite types hold on each code and so for the common outcome. User functions are assumed not to depend on the encoding
  (`Uniform`), which is shown for the environment of the demo. `C135_structs` connects codes with declarations.
* **C128** `Serial/Rec.lean`: declarations map names to fields, `unroll D k n` writes the struct `n` out `k` times.
  `RecAgree.lean`: types that are the same down to `k` nested vectors and maps (`Upto`) are treated the same on values and
  documents of at most `k` levels, for each of the functions by induction on the type. `isA` (typing) and `Expands` (the
  declared fields and attributes are kept) are specifications that do not mention `unroll`.

## Findings (proved violations)

Where the code does not do what the property says, the negation is proved.

* **C16** `C16_failed_set_violated`: a `path::set` that throws on an encoding error leaves
  the characters of the bad segment in `joined()`; segments and prefixes stay valid. `C16_exact`
  gives the text; it is consistent iff no segment came before the bad one (`C16_consistent_iff`).
* **C09** `C09_optional_violated`: when reading the payload of a `std::optional` fails, the
  optional holds a value-initialised payload (optional.hpp:17-25 assigns `r.read<T>()`
  without checking the error).
* **C10** `C10_skip_min`: `skip(PTRDIFF_MIN)` negates the minimum and is undefined.
* **C56** `C56_closed_max_violated`: a closed `enum_traits` range whose last value is the
  maximum of the underlying type has `max_value` wrapped to zero: `in_range` is always false.
  `C56_backwards_violated`: `count() > 0` compares an unsigned number and lets ranges through
  whose bound lies below `Min`. `C56_kinds`, `C56_reversed` say what happens then.
* **C151** `C151_read_violated`: reading an enumeration that has no fixed underlying type and is not reflected is undefined for numbers in the
  document that the enumeration does not have (4 for `enum { north, east, south, west }`); nothing checks them. `C151_end_violated`: so are
  `enum_traits::max()` of a closed range and `++` at the largest value. `C151_flag_loop_violated`: and `<<=` at the last flag.
* **C150** `C150_complement_violated`: `set & ~flag` is undefined for `enum flags { a = 1, b = 2, c = 4 };` (no fixed underlying type): `~` casts a
  value that the enumeration does not have.
* **C57** `C57_difference_violated`: the difference of two `enum_range` iterators has the
  wrong sign (`C57_difference`, `C57_order`: exactly).
* **C59, C60** `..._high_bytes_violated`: bytes of 128 and more are sign extended, so the
  values differ from the published hash functions.
* **C61** `C61_literal_string_violated`: a string literal used as delimiter set contains its
  terminating NUL.
* **C64** `C64_copy_violated`: `unset` on a copy, or writing through `get`, changes the
  original, because copies share nodes.
* **C101** `C101_ambiguous_violated`: with two `std::exception` bases the diagnostic text depends on
  how the exception was caught.
* **C68** `C68_mixed_sign_violated`: `in_range` with an argument of the other signedness
  compares after conversion and is wrong (`C68_exact`: for exactly which arguments).
* **C65** `C65_mmap_violated`, `C65_mmap_never_reported`: `file_view_unix.cpp:80` tests the
  result of `mmap` against null instead of `MAP_FAILED`. `C65_win_size_violated`: the result of
  `GetFileSizeEx` is not checked. `C65_copy_violated`: the class can be copied.
* **C21, C26** `C21_violated`, `C26_violated`: `slot_state::disconnect` first exchanges the
  sender and then calls `signal::disconnect`. If another thread swaps or moves the signal in
  between, `rebind_locked` gives the slot a sender again: it is called, counted and kept although
  it was disconnected.
* **C24** `C24_race`: an emission loads the block count before the sender; a blocker created by
  another thread in between does not prevent the call.
* **C27** `C27_leak`: if a slot throws, the emission's reference to it is never released.
* **C41** `C41_nested_optional_violated`: an empty optional in an optional comes back as an empty
  outer optional.
* **C44** `C44_flattened_violated`: an `extra_fields` map in a flattened record captures members
  that belong to the record around it; the value read can then not be serialised.
* **C45** `C45_repeated_names_violated`: see the statement.
* **C47** `C47_flattened_violated`: validators on a flattened field are silently ignored.
* **C52** `C52_tuple_violated`: elements of tuples, pairs and enum sets add no line to an error.
  Lines name the C++ field, not the renamed member.
* **C85** `C85_repeated_violated`: with repeated names the order of members matters (the first
  counts).
* **C75** `C75_skipped_name_violated`: the run-time collection of reserved names does not skip
  skipped fields, so a record that compiles can throw `logic_error` on every use.
* **C91** `C91_strong_violated`: a failed read changes its target. `C91_invalid_violated`: the
  value a validator rejects stays in the field, so a valid target can become invalid.
* **C93** `C93_missing_violated`: with `allow_missing`, the rest of a failed read is taken for the
  old value by the next one.
* **C95** `C95_two_keys_violated`: with two child keys, repeating a PUT that succeeded can answer 405.
* **C96** `C96_flattened_violated`: the members of a flattened struct are in the document of the
  struct around it, but not at their own paths.
* **C97** `C97_map_violated`: PATCH replaces maps (and vectors) as a whole.
* **C99** `C99_unchecked_violated`: `deserialize_at_path` writes `read_only` fields and keys of
  children, leaves invalid trees, and leaves a part behind when it throws.
* **C100** `C100_skip_serializing_violated`: GET at the path of a `skip_serializing` field shows it.
  `C100_skip_deserializing_violated`: PUT at the path of a `skip_deserializing` field writes it.
  `C100_validator_violated`: PUT at the path of a field avoids its validators, after which PUT of
  the resource's own document answers 400.
* **C104** `C104_destructor_violated`, `C104_emission_violated`: targets are destroyed while the mutex
  of the signal is locked. If the target of one slot owns a scoped connection to a later slot of the
  same signal, `~signal` locks the mutex again (a deadlock in practice); so does the end of an
  emission in which the first slot was disconnected.
* **C105** `C105_cycle_violated`: a target with a (scoped) connection to its own slot is never
  destroyed.
* **C106** `C106_name_violated`: `object_builder::add` keeps a pointer to the name it is given.
  `C106_key_violated`: so does `serialize` of a map with `const char*` keys (`add_field` takes them for
  literals, though values of that type are copied). `C106_view_violated`: serializing a `json::view`
  copies the value but not such names, so the new document depends on them too.
* **C107** `C107_root_view_violated`, `C107_short_violated`: moving a `Document` breaks a view of its
  root, and a `string_view` of it if it is a short string (but not a longer one).
  `C107_missing_view_violated`: with `allow_missing`, a missing member leaves a default constructed
  `json::view`, and serializing it dereferences a null pointer.
* **C108** Formats of users are bypassed: `C108_flatten_violated`: a flattened object with a
  `serializer` is written field by field (detail/serialization.hpp:599) but read by the serializer (959).
  `C108_set_violated`: `dump` of an `enum_set` writes names (678), `serialize` goes through the
  dispatcher (770). `C108_key_violated`: keys of maps are written as text and read with the key type's
  `deserialize` (836). `C108_absent_violated`: a null field is left out without asking its serializer.
* **C109** `C109_generic_violated`: a `patch_adl` written as the comment at serialization.hpp:36-43 says
  (a template over the tag) is ambiguous for a reflected type or an optional, which makes `patch`
  replace the whole value by `deserialize` without an error. `C109_adl_violated`: documented.
* **C110** `out = yaml::view{value}` (yaml.hpp:562-566) is `YAML::Node::operator=`, which redirects the
  node the view referred to. `C110_overwrites_violated`: an object read from one document and then
  read or patched from a second one changes the first document. `C110_cycle_violated`: a view of a part
  of a document that is read from the whole makes the document contain itself.
  `C110_anchor_violated`: three views bound to one anchored node: one shows the wrong value afterwards.
* **C111** `C111_shared_violated`: `serialize` of a `yaml::view` hands out the node itself, so editing the
  result edits the source document and vice versa (the JSON backend copies).
* **C112** `C112_documented_violated`: the example in the documentation of `KL_REFLECT_ENUM_SEQ`
  (reflect_enum.hpp:63), `(A)(B, bb)(C)`, does not expand; it must be `(A)((B, bb))(C)`.
* **C113** `C113_braces_violated`: an attribute such as `range{1, 2}` becomes two broken ones.
  `C113_no_fields_violated`: without `__VA_OPT__` an empty list of fields is one nameless field, so a
  derived class that adds no field cannot be reflected with `KL_REFLECT_STRUCT_DERIVED`.
* **C114** `C114_rvalue_violated`: a signal with a parameter `T&&` does not compile once it is emitted.
* **C130** `C130_range_violated`: `kl::range{std::vector<int>{1, 2}}` compiles and refers to the destroyed vector.
  `C130_refused_violated`: `zipped` refuses temporary `kl::range`s, `zipped_range`s and constant iota ranges, which are safe.
* **C131** `C131_nonfinite_violated`, `C131_vanishes_violated`: `json::dump` leaves out NaN and infinities, since nobody looks at what
  `Double` returns: a lone one gives the empty text, `std::vector<double>{NAN}` gives `[]`, which reads back as an empty vector, and others
  give texts that are no JSON. `C131_null_violated`: `json::parse` ignores whatever follows a null character.
* **C132** `C132_twice_violated`: 2^54 + 2^30 + 1 is read into a `float` as 2^54, although 2^54 + 2^31 is nearer. `C132_lossless_violated`: 2^53 + 1 is
  read into a `double` and 1e300 into a `float` without an error; the latter becomes infinite (undefined behaviour by the letter of the standard).
* **C148** `C148_cycle_violated`: if targets of two signals own `scoped_connection`s of each other's signal, two threads that call
  `disconnect_all_slots` (or destroy the signals) deadlock: each has one mutex, taken by `lock_guard`, and waits for the other.
* **C147** `C147_livelock_violated`: two threads that swap the same two signals may miss each other any number of times, each having one
  mutex (a property of `std::scoped_lock`). `C147_needed`, `C147_self_check`: why `swap` does not use two `lock_guard`s and checks for itself.
* **C149** `C149_shared_violated`: the rule is needed: a thread that reads an object and one that destroys it race at the node.
* **C146** `C146_race_violated`: a copy of an `exception_info` in another thread is not independent: `unset` on one writes `next_` of a shared
  node that `get`, `diagnostic_info` and `unset` on the other access; so does a write through the pointer of `get` with `value_`.
* **C145** `C145_dangling_violated`: `unset` on a copy makes the pointer that `get` of the other object returned dangle.
  `C145_deep_violated`: the destructor of an object with n values, of one tag even, recurses n deep (one frame per `next_`).
* **C144** `C144_torn_violated`: a dump that throws leaves the beginning of a record in the writer; closed, it reads as another record.
* **C143** `C143_torn_violated`: when memory runs out a record may be half new although its document is fine.
  `C143_repeated_names_violated`: a patch with repeated member names that was cut short may fail when made again.
* **C142** `C142_temporary_violated`: `auto j = kl::stream_join(f()); os << j;` compiles (`stream_join.hpp:54` takes `const Iterable&`) and
  reads the destroyed container. `C142_delimiter_violated`: a delimiter from a temporary string; noticed from two elements on only.
  `C142_by_value_violated`: two calls of `std::copy` with one `outstream_joiner` print `1, 23`: `first_` is changed in a copy.
  `C142_moved_violated`: a moved from joiner goes on with an empty delimiter.
* **C141** `C141_stale_violated`: a view kept while its path is set, moved from or destroyed. `operator[]` is `noexcept` and `substr`
  throws (`path.hpp:21-26`), so it may terminate. `C141_moved_violated`: `path` has no move operations of its own; if the library
  leaves the elements of a small `small_vector` in place, `size()` is still 2 after a move while the text is gone. `C141_own_violated`:
  `p.set(p[1])` clears the text before it reads it (`path.cpp:10-16`).
* **C140** `C140_leftover_violated`: if there is no memory for a longer array of segments (`path.cpp:106`), the text of the
  name has been appended already: `joined(14)` of the path left behind is `o/pq`, its last segment `o`.
* **C139** `C139_unnoticed_violated`: `notify_changed` comes after the commit (`resource_op.hpp:886-893`), so a request may throw
  `std::bad_alloc` although the value has changed, and no location is ever reported as changed. `C139_terminate_violated`: for types
  with throwing moves a refused value may end in `std::terminate` instead of 409 (`~rollback_value` throws while unwinding).
* **C138** `C138_lost_violated`: if `notify_changed` throws `std::bad_alloc` after the entry of the root, the root has changed but the
  location has not, for everyone who asks; the generation is used up.
* **C137** `C137_empty_vector_violated`: `encode_vector` of scalars writes its span also if it is empty, and the span of a vector that never
  had elements is null: `memcpy(p, nullptr, 0)` (`string.hpp:15` and `vector.hpp:40` have the check). `C137_failed_span_violated`:
  `w << r.span(n)` if the reader has fewer bytes, likewise. `C137_overlap_violated`: `write_span` of bytes of the own buffer.
  `C137_own_vector_violated`: `r >> v` where `r` reads from `v`.
* **C136** `C136_assign_violated`: `blocker::operator=(const blocker&)` releases the old slot before it reads `other.slot_`, like
  `connection::operator=`. `C136_move_assign_violated`: after `b = std::move(c)` the slot that `b` blocked is still blocked, by `c`.
  `C136_wrap_violated`: with 2^32 blockers of a slot it is not blocked, and destroying one of them fails the `assert`.
* **C134** `C134_assign_violated`: `connection::operator=(const connection&)` releases the old slot before it reads `other.slot_`; if the target of
  the old slot owns `other`, it reads a destroyed object. `C134_disconnect_violated`: `disconnect()` on a connection that is owned by the target
  of its own slot, with no other reference, destroys the connection inside of `release()`; the reference is released twice and line 180 writes
  to the destroyed object. `C134_leak_violated`: such a connection keeps its slot forever. `C134_equal_disconnect_violated`.
* **C133** `C133_amplification_violated`: the four bytes of a count make `read_binary` ask for that many elements (up to 2^32-1, times their
  size) before it looks whether they are there. `C133_reported_violated`, `C133_strong_violated`: when memory is refused, the exception leaves the
  reader without `err()`, and the destination empty or partly filled. `C133_bool_violated`: any byte becomes the representation of a `bool`.
* **C116** `C116_filter_violated`: a `type_pack` at the end of a list is unpacked instead of tested.
  `C116_func_traits_violated`: `func_traits` rejects `noexcept` lambdas and functions, ref-qualified member
  functions and constant function pointers.
* **C117** `C117_mutable_violated`: one `mutable` handler makes calls ambiguous. `C117_generic_violated`:
  `auto&&` takes what `const T&` is for. `C117_moved_violated`: `match(std::move(v), ...)` passes lvalues.
* **C118** `C118_long_long_violated`: JSON reads `long long` (where `int64_t` is `long`) and `long double` but
  cannot write them. `C118_string_view_violated`: YAML writes a `std::string_view` as a sequence of letters and
  reads it as a scalar. `C118_pointer_violated`: `dump` of a pointer writes `true` or `false`.
  `C118_set_violated`: a `std::set` is taken for a range of a fixed size; reading it fails inside the overload.
* **C119** The bounds of `range` are compared after the usual arithmetic conversions. `C119_unsigned_violated`:
  `range(lo, hi)` with `int`s `lo < 0 <= hi` for an `unsigned` field rejects every value.
  `C119_negative_violated`: `greater_equal(1u)` for an `int` accepts every negative number.
  `C119_rounding_violated`: a 64-bit field compared with a `double` is rounded first. `C119_nan_violated`,
  `C119_yaml_nan_violated`: `nan` passes every bound, and YAML documents can contain it. `C119_text_violated`:
  the text shows bounds with six digits after the point only.
* **C115** `C115_raw_violated`: slots with a pointer or reference to an object outlive it.
* **C124** `C124_disconnect_violated`: `connection::disconnect` exchanges `sender_` and then calls `disconnect` on the signal
  that was there. If another thread destroys the signal in between, it locks a destroyed mutex; holding a
  `connection` gives no protection. (`~signal` cannot see it: `sender_` is already null.)
* **C125** `C125_dump_violated`: `dump_at_path` (resource_op.hpp:662-671) does not compile for a reflected class, since
  `visit_node<void>` needs `std::unique_ptr<void>` (517, 528, 538, 578, 591, 602). No test uses it.
* **C122** `C122_undone_violated`: the same as C26, with single accesses: a thread that moves a signal while another
  one is in `disconnect` makes the slot connected again.
* **C32** DELETE of an `optional` that holds a collection marks only the optional itself:
  `C32_optional_violated` (`resource_op.hpp:1064` tests for a struct instead of
  `has_addressable_descendants_v`). Indices have several spellings, and the tracker compares
  strings: `C32_index_violated`. With two `child_key` attributes one child has two paths:
  `C32_two_keys_violated`, `C35_two_keys_violated`, and the key not used in the path can be
  changed: `C34_other_key_violated`.
* **C39** `C39_in_optional_violated`: DELETE of an element of a collection held in an optional
  answers 405 (`delete_direct_child` does not look through the optional).
* **C74** `C74_del_missing_violated`: DELETE with an index past the end answers 405 instead of
  404 if the sequence is protected or has no `erase`.
