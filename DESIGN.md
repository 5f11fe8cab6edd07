# Formal model of google/koladata in Lean 4

## Layout

* `properties.jsonl`: the properties, one per line (C01, C02, ...).
* `lean/Verif/<Area>/Model.lean`: transcription of the code, function by
  function. Every definition cites the file and lines in `/repo` it models and
  says where it is simplified.
* `lean/Verif/<Area>/Spec.lean`: small, model independent specifications used
  in theorem statements (lists, finite maps, relations, ...).
* `lean/Verif/<Area>/Lemmas.lean`: helper lemmas.
* `lean/Verif/<Area>/Theorems.lean`: the property theorems, named
  `Cnn_...`, each followed by `example`s that meet its hypotheses.
  Small areas keep the four parts in fewer files.
* `MANIFEST.json`: property -> theorem names and status.
* `seeded/LOG.jsonl`: wrong-program experiments.

## Trusted base

* Lean 4.33.0's kernel, and the modules of Mathlib that are imported one by one.
* Axioms: only `propext`, `Classical.choice` and `Quot.sound` may appear
  (`#print axioms`); no axiom is added, there is no `sorry`, no `native_decide`,
  no `bv_decide`.
* The correspondence between the model and the code. It is by reading: the code
  was not run (no dependencies in the sandbox). Each definition carries its
  citation so that the correspondence can be reviewed locally.
* Modelling conventions, everywhere:
  * Python exceptions and `absl::Status` errors are values of an error type
    (`Except`); messages are reduced to an error kind unless a property needs
    them.
  * Values whose content does not matter are type parameters. Hash functions
    (stable fingerprints, deep_uuid) are uninterpreted functions; where the
    code relies on the absence of collisions, injectivity is a hypothesis that
    is visible in the theorem.
  * `flat_hash_map` iteration order is arbitrary: theorems hold for any order
    of the association list that represents the map.
  * Mutexes make the critical sections atomic steps; an interleaving is a list
    of steps. Weak memory effects of relaxed atomics are not modelled.
  * C++ fixed width integers are modelled by `Nat`/`BitVec` with explicit
    wrap-around where wrap-around matters (object ids, base62), and by `Nat` or
    `Int` for sizes and indices.

## Properties: what is modelled and how it is proved

C01-C03 **LruSizeTrackingCache** (`Verif/Lru`). The insertion ordered dict is a
list of `(key, value, size)` from oldest to newest. All methods are transcribed;
a history is a list of operations folded over the state. Proofs: invariant by
induction over histories (C01); eviction characterised as the shortest
sufficient prefix (C02); refinement to a history-based specification of what
`get` may return (C03).

C04 **cache_fn** (`Verif/CacheFn`). The wrapper is transcribed over slices as
lists of optional argument tuples; the LRU cache below it is any cache that may
forget anything at any time but returns only what was put. Proof: invariant
"cache is consistent with fn" plus pointwise equality. Finding: `fn` must map
missing arguments to missing; a counterexample theorem shows transparency fails
otherwise.

C05-C06 **DataSlicePath** (`Verif/Path`). Parser and printer are transcribed on
lists of characters; `str.isidentifier` is a parameter predicate with the facts
used (nonempty, no `.`, `[`, `(`) and base64 is a parameter with its round trip.
Proof: structural induction on the action list / on fuel for the parser.

C07 **generate_data_slice_paths** (`Verif/Path`). BFS over an abstract schema
transition function; completeness by induction over depth.

C08, C09, C12 **DataBagManager** (`Verif/BagManager`). The persistence directory
is a finite map from file names to contents with atomic `rename(overwrite=False)`;
every method is a list of file system steps, a crash is a prefix of the steps,
concurrency an interleaving. Proof: inductive invariant on the directory.
Findings:
* The default file system's `rename(overwrite=False)` is "check, then rename",
  not atomic. C09 is proved for an atomic rename, the theorem
  `C09_default_file_system_counterexample` shows two writers both succeeding
  with the default one, and C08-C12 are also proved for serial schedules with
  crashes and restarts on the default one.
* A crash inside `create_new` can leave a directory that neither `create_new`
  nor `create_from_dir` accepts.
* The early existence check in `_persist_metadata` is redundant given
  `rename(overwrite=False)`.
* `extract_bags` drops custom metadata. Update numbers of 13 digits would not
  match the 12 digit glob; the file name theorems state the bound.

C10, C11 closure and branching, same model. Closure = reflexive transitive
closure (relation), order = order of adding, which respects dependencies by C12.

C13-C16 **DataSliceManager** (`Verif/SliceManager`). A world of directories, any number of
manager instances and a log of what callers see. `create_new`, `create_from_dir`, `update`,
`branch`, `get_readonly_copy` and `set_read_only` are split into the steps between which
other processes run, the process dies or an exception is raised; the executions are all lists
of actions. Each of the three bag managers is represented by what C08-C12 prove of it: a
number and the bags in the order of addition, `add_bags` commits all or nothing and only if
the number is still the one the instance has seen. The specification (`Spec.lean`) has no
steps, bag managers or files: every directory is a list of revisions, an update appends the
revision computed from what the last one shows, a branch starts a list with what the chosen
revision shows. Parameters (`Api`): the computation of an update from what the manager shows
(the part of `update` that splits data into minimal bags), the schema of the initial data,
applying a schema bag, node names of a schema, the short form of a uuid. Proof: an invariant
that names the committed revisions of every directory and everything in flight, preserved by
every action; progress arguments follow one instance while the others do anything.
Simplified: uuids are (instance, counter); temporary files, timestamps and the sorting of
names are left out; `serialize`'s check and write are one step; the assignments after the
commit of an update are one step (lines 1050-1051, where the code itself says that an
interrupt between them is not handled); users do not choose directories inside another
manager's directory.
Findings:
* A manager that shows the last revision cannot update if another instance was interrupted
  inside an update of the same directory, since a bag manager has moved on
  (`C15_blocked_finding`); opening the directory again helps (`C14_resume`).
* An update interrupted between its commit and its last assignments raises although it has
  committed, and leaves the manager stale (`C14_raised_but_committed_finding`).
* The existence check before the rename is redundant.

C17, C18, C50, C51 **SchemaHelper** (`Verif/SchemaHelper`). `schema_helper.py`
is transcribed whole: the names of nodes, the level by level analysis of a
schema, relationship bags, converse relation and transitive closure (the order
of `set.pop` is a parameter), and all public methods. The specification knows
only paths: `Step`, `Reaches`, the place a path leads to (`NodeAt`), and what is
`Needed` for a request. Proved for every schema, recursive ones included: the
analysis ends and accepts exactly the schemas without `OBJECT`/`SCHEMA`
subschemas and without metadata that is not primitive; every method says what it
should about paths; names identify places (through base62 of C30 and the path
texts of C05); the schema bag of a set of nodes says exactly what the schema says
about them and is enough to follow the requested paths; the affected nodes of an
update are those of the updated schema. Assumed: `TextLaws` of C05/C06, an
attribute has one schema. Simplified: `sorted` is left out, the loops have a
number of iterations as fuel that is proved enough, a schema with an item id is a
list, a dict or an entity schema, metadata values are primitive or not. Finding:
`get_minimal_schema_bag_for_parent_child_relationship` raises KeyError, not
ValueError, for two valid nodes that are not parent and child
(`C50_relationship`).

C19-C23, C45 **View** (`Verif/View`). Nested tuples are an inductive tree;
functions of view.py and `MapImpl` of clib.cc are transcribed over a monad-free
`Except` with the list of calls of `fn` recorded. The specification reads items
by index paths. Not modelled: TypeErrors of unhashable or incomparable keys in
`group_by` (key equality is assumed an equivalence, `<` total), `get_attr` and
the auto-boxing of values. Findings: `select` with a shallower filter does not
look at filter items that are broadcast to no position; `collapse` compares only
with the first value (so it relies on `==` being an equivalence).

C24 **Lists** (`Verif/DataList`). The four storages of `DataList` with the switches between
them; refinement to `List (Option value)`. Finding: `AddToDataSlice` of a list that is all
missing leaves the positions of the slice builder unset, the other storages mark them as set.

C25 **Forked bags** (`Verif/BagFork`). Lists live at heap addresses of list vectors, vectors
belong to implementations, bags point to implementations and fork lazily. The specification
is a plain copy per bag. Not modelled in this area: attributes and dicts (the part of
`IsPristine` that looks at them), fallbacks, reference counts. The policies that choose the
storage (`updateSize`, `useArray`) are left open and proved invisible.

C26-C27 **Dicts** (`Verif/Dict`). Dicts live in a heap and point to older parents; a hash
map is the list of its entries in any order. The collector with its two sets of keys, the
skipping of empty dicts, sorting by key, modified keys, sizes, clearing and the two ways to
fork are transcribed. The specification reads a list of layers, and for histories it is a
plain partial function per dict where a fork is a copy. Assumed in the histories: a dict is
not changed after it was forked (bags freeze what they fork). Keys are compared by a
decidable equality and sorted by any strict order that is total on them (NaN keys are not).
Finding: removed keys stay listed by `GetKeys` with a missing value, so the size counts them.

C28, C29, C34 **Schemas** (`Verif/Schema`). The lattice rows, Floyd-Warshall, the table of
common dtypes, the bit mask aggregator with its loop over set bits, and the aggregator of
struct schemas are transcribed. The specification is the graph of
`docs/deep_dive/schema.md` as an inductive relation over named dtypes and struct schemas;
paths and suprema are defined on it. Facts about the 13 dtypes are a complete case analysis
by kernel evaluation; masks, collections and struct schemas are handled by induction. The
`LOG(FATAL)` of the table is an error value that is proved unreachable. No-follow schemas:
the round trip holds except for one id (`reservedSchemaId`) that no creating call makes.
Finding: the comment of `VerifySchemaForItemIds` says that it accepts entity schemas, the
code accepts only ITEMID and OBJECT. Not modelled: `GetDataSchema`, error texts.

C30 **base62** (`Verif/Base62`). The code is transcribed on bit vectors of 128 and 64 bits
with the buffer written from right to left. The specification is the positional numeral.
The multiplication with the modular inverse of 31^10 is proved equal to the division by
62^10. The operators `encode_itemid` and `decode_itemid` are modelled on items and on slices
(a slice is the list of its items), and the string shown for an id (`ObjectIdStr`).

C31-C33 **ObjectId** (`Verif/ObjectId`). Ids are records of bit vectors of the
exact widths of the bit fields; allocation is a transition system over a process
wide atomic counter and per thread counters (`AllocSim` relates it to an abstract
machine of tokens). `AllocationIdSet` is transcribed with the vector, the flag
and the optional hash set (a hash set is a list of which only membership is
used; `std::lower_bound`, `sort`, `unique`, `inplace_merge` are their linear
versions); reading an empty optional is an error value that is proved unreachable.
Findings: `CHECK_LE(offset_bits_, 40)` looks at the value after truncation to a six
bit field, so `Allocate(size)` with `size > 2^63` passes it and returns an
allocation that meets single objects (`C31_huge_size_counterexample`).
Uniqueness is proved for at most 2^64 calls, and, with reseeding (which changes
the epoch), for at most 2^18 events. `AllocateUuids` has the same truncation.

C46 **Kinds of ids** (`Verif/ObjectId/KindTheorems`). The inductive relation `Created`
lists the creating calls with the kind each of them stands for; every predicate on ids is
then determined.

C35, C36, C47, C48 **Uuids** (`Verif/Uuid`). The hash function is a parameter (initial
state, mixing of a byte string, final packing). `record` is the instance that remembers its
inputs: "the uuid is a function of these inputs" and "different arguments give different
inputs" are both theorems, so no property depends on the quality of CityHash. `std::sort` is
an insertion sort; the order of equal elements, which the library leaves open, matters only
for repeated names, which the theorems exclude. The string literals with embedded zeros are
cut at the first zero, as the conversion to `string_view` does (missing is "s", unit "a",
dtypes "::sc" and the number). Type names are those of the Itanium ABI. Findings:
 * the families of uuids are not all separate: `uuid(seed="_with_main_object")` with one
   field has the inputs of a main object uuid when the fingerprint of the value equals the
   bytes of the allocation (`C35_main_object_inputs_not_separate`, exact condition);
 * `agg_uuid` of an empty group is the uuid of no fields (`C35_agg_of_empty_group`);
 * `agg_uuid` replaces missing items by the text "__empty_input_to_uuid__", so an item with this text has the
   uuid of a missing one (`C35_agg_missing_collides`); with that exception items and their places are told
   apart (`C35_agg_op_inputs_differ`);
 * a quoted expression whose serialisation is "s", "a" or "::sc<n>" would be the hash of
   another item (`C47_ambiguous_expression`); the real serialisations are longer, which is
   not modelled;
 * `uuids_with_allocation_size` does not check for negative sizes; the theorems take sizes
   up to 2^63.
Not modelled: CityHash itself, the serialisation of expressions, slices of mixed type (the
slice forms are on lists of items).

C37, C38 **streams** (`Verif/Stream`). A stream with its chunks, one writer and
any number of readers is a transition system; a step is a critical section of
the mutex, an operation on the atomic flag of the writer, or the call of a
callback that was taken out of the stream; a schedule is an arbitrary list of
steps, with threads stopped anywhere between them. The specification only looks
at the history: the items written, the items each reader got, the first request
to close, the callbacks subscribed and called. Proved: every read returns the
next item, else the status, else "empty"; reads of one reader are a prefix of
the writes; when each call fails; the first closer wins and its thread does
close the stream; a callback is callable exactly if there is something to read,
and is called at most once. Trusted: a mutex makes its critical sections atomic,
a deque keeps references to its elements, `TypedValue` slots hold what was put
in. A `Write` to a stream nobody can read is a step `lost`. Type mismatches of
`Write` are not modelled.

C44 **futures** (`Verif/Future`). A future, the variables that hold its writer,
and the readers of its stream, as a transition system like that of streams. The
specification follows who holds the right to set the value. Proved: the value
shown is the one the owner set, or the cancelled error; it never changes; who
can set it; every consumer is called exactly once, with it; the stream of a
future has the value as its only item. Finding: the default move-assignment of
`FutureWriter` drops a future without setting it (`C44_overwritten`); the code
in the repository does not do that, and `C44_no_loss` excludes it.

C39 **`stream.map`** (`Verif/StreamMap`). The reader of items, the tasks of the
executor, the `OrderedSink`, the output and the callback of a cancellation. A step
is one atomic action of one thread, so that a schedule is any list of steps. The
loop of `PushItem` writes one item per step while it holds the mutex.
`C39_safe`: in every state the output is a prefix of the sequential result, and
its status is that of the sequential result or of a cancellation.
`C39_complete`: when nothing of the operator can run, it is all of it.
`C39_terminates`: the steps that do anything are bounded in number.
`C39_stable`, `C39_cancel`. Atomics are sequentially consistent in the model; the
relaxed orders of `final_offset_` and `stop_reader` are not modelled. Both are
only hints that save work: the critical sections read `final_offset_` under the
mutex under which it is written.

C40 **`stream.map_unordered`** (`Verif/StreamMapUnordered`). The same with
`UnorderedSink`, which has no mutex: each operation on one of its atomics is a
step. Items are mapped items, each once, up to order (`List.Perm`); the status;
the writer is never closed twice (`C40_not_fatal`).

C41 **stream composition** (`Verif/StreamChain`, `Verif/StreamInterleave`). The schedulers of `StreamChain`
and `StreamInterleave` (stream_composition.cc:31-250). A step is a critical section of the mutex of the chain,
or one operation on a stream; in the interleave `TryClose` is two steps, the flag and the closing. Input streams
are lists of items and a status that arrive at any time. Additions, writes, callbacks, threads, the destruction
of the handle and that of the scheduler interleave in any way; additions after the destruction of the handle
do nothing. For the chain: the output is always a prefix of the concatenation up to the first error, and is
closed only with all of it (`C41_chain_safe`); when nothing can happen by itself it has all that can be
known (`C41_chain_flow`, `C41_chain_complete`); only finitely many internal steps happen
(`C41_chain_terminates`); no `CHECK` fails (`C41_chain_not_fatal`). For the interleave: the output is a
merge, shown by a tagging of its items with their places (`C41_interleave_safe`, `_flow`, `_complete`,
`_terminates`, `_stable`). Not modelled: `Orphaned`, type checks of items, and that an input stream is
released after an error.

C42 **stream loops** (`Verif/StreamLoop`). `basic_routine.cc` is a machine that runs the hooks of a routine
as a program of operations on streams and on the writer (`Routine`); `stream_for.cc`, `stream_while.cc` and
`stream_reduce.cc` are such programs (`Model`), for and while loops with `returns` or `yields` being one program
with parameters. A step is one operation; `TryClose` is two. Inputs and condition streams arrive at any time,
and cancellation, the dropping of the output and the destruction of the routine come at any time. The
specification is the loop as a recursive function (`Spec`): `foreach`, `whileLoop`, `fold`. Proved for every
schedule: the items are a prefix of what the sequential loop writes (`C42_loop_items`, `C42_reduce_items`); a
closed output is the sequential result, unless cancelled (`_closed`, `_deterministic`); a loop with nothing to
do is closed or waits for a stream in which there is nothing to read (`_complete`, `_waits`); its steps are
bounded if the sequential loop ends (`_terminates`), and bounded by a constant after its output was closed or
dropped even if it does not (`_stops`); the cancellation closes the output at once (`_cancel`), and a routine
that waits is not resumed after it (`C42_not_resumed`). Finding: a loop with `returns` that finds itself
interrupted goes to `OnSuccess`, and so may write an intermediate value between the flag and the closing of the
stream by the cancellation; the output then has an item and the status of the cancellation (an example shows
it), which is why `C42_loop_items` for a cancelled loop with `returns` says only that there is at most one item.
Functors are functions of their arguments; the notes that are added to errors are left out.

C52 to C55 **attributes of bags** (`Verif/BagAttr`). The attribute storage of `DataBagImpl`:
`SparseSource`, the three kinds of `DenseSource` (read-only, mutable of one type, mutable of several types),
source collections, layers of forks, and on them the reads of one object and of slices, the writes, object
creation, forks, merges and overwriting updates, transcribed branch by branch. What a bag knows about an attribute of an
object is "unset", "removed" or a value; the specification is a function from objects and attributes to these
(`getWithRemoved`, which is also the read of the API). Proofs: an invariant (`Bag.WF`) and for every operation
its effect on all reads. `Written`, `Merged`, `MergedAt`, `UpdatedAt`, `MergeError` in `Spec` say what is
expected. Simplified: see the header of `Model`. Findings, each shown by a witness theorem or stated as an exception:
(a) assigning missing values to all objects of an allocation is ignored (`C52_assign_missing_ignored`);
(b) an array of removed values without a types buffer is ignored when it is merged into an array, even with
overwriting (`C54_all_removed_witness`); (c) such an array has the size of the capacity of the allocation; with a
`Unit` value in it, it is merged beyond the end of a smaller array (`C54_overrun_witness`); (d) an object that occurs
several times in one write with values of several types may be left with another value than the last
(`C52_duplicates_witness`); (e) with very many allocations in a slice, sizes are not checked (stated in
`C52_set_slice_other`); (f) whether NaNs of different float types are a conflict depends on the storage
(`StrictSame` versus `Same`); (g) a `DCHECK` of `MergeBigAllocImpl` does not hold if the dense source of the other
bag is in a parent layer.

C56 to C58 **data bags as users see them** (`Verif/BagWorld`). `DataBag` of
`koladata/data_bag.{h,cc}` on top of `Verif/BagAttr`: handles with an implementation, fallbacks and the flags
`is_mutable_` and `forked_`; implementations have addresses and a parent pointer, so that sharing, lazy forking in
`GetMutableImpl` and freezing are as in the code. Operations: `Empty`, `Fork`, `Freeze`, `UnsafeMakeImmutable`,
`ImmutableEmptyWithFallbacks`, modifications, `MergeFallbacks`, `MergeInplace`, `CreateOverwritingMergeUpdate`; reads
go through `FlattenFallbackFinder`. Specification: what is read from which bag, over all histories (`Reach`, `Later`).
Proof: an invariant (`Ok`: an implementation that is not frozen belongs to one mutable bag and nobody builds on it, a
bag with fallbacks knows nothing itself, fallbacks are older and immutable), and for each operation what it keeps
(`Keeps`). The state a failing modification leaves its bag in is arbitrary (`crash`). Simplified: one thread, nothing
is freed, attributes only (no lists and dicts), one conflict policy for data and schemas, and merging a bag into itself
takes the other bag by value. Finding: `MergeFallbacks` can bring back a value of a later fallback that an earlier
one has removed from all objects of an allocation (`C57_merge_fallbacks_witness`, a consequence of (b) above).

C59 to C65 **JSON streams** (`Verif/JsonStream`). The byte-level processors of
`koladata/internal/op_utils/json_stream.cc` except salvage, their composition and the driver of
`koladata/operators/json_stream.cc`. Each processor is its state, and a step that consumes one byte and writes bytes;
bytes are natural numbers. `Spec` has JSON values with their texts as an inductive relation (`Text`, `Doc`: RFC 8259
grammar with any ASCII whitespace), the compact and pretty texts, contents of strings (`Decodes`), and what is to be
selected. Proofs: `Follows` relates a processor to a function of the whole rest of the input, which gives C59 and C60
for all cuts and all compositions; the rest is by induction on texts, with an invariant on the state before and after
each value. Numbers keep their text, strings what is between their quotes. Simplified: the arguments of the operators
are given; a chunk is processed by one call; the executor and the stream are not modelled (see C38). Findings, each with a
witness theorem: (a) `get_object_key_value(s)`: after an empty object a string that is no key becomes part of the next
key (`C65_empty_object`); (b) `get_array_nth_value`: values that are neither arrays nor objects are not ended, so
that the outputs of values after them are missing or cut (`C63_nth_scalars`), and for a negative index arrays yield nothing;
(c) `unquote` loses the character after half of a surrogate pair (`C64_lone_surrogate`); (d) `prettify` begins with a
newline if its input begins with whitespace (`C61_prettify_leading`).

C66 **salvage** (`Verif/JsonSalvage`). `JsonSalvageStreamProcessor` is transcribed rule by rule: the decoding of UTF-8, the
state, the buffer, the stack of containers, the pending half of a surrogate pair. The output is kept as code points, which
are encoded when they leave the processor. `Spec` has JSON texts with defects (`Loose`, `LooseDoc`); without defects they are
texts of `JsonStream.Spec` (`doc_strict`). Proof: an invariant says that what was written is the beginning of such a text for
the stack, the separator flag, the key flag, the state and the buffer; each rule keeps it, for any code point; decoding
gives code points only that are in the input or replacements. Findings: the output is not JSON for some inputs: (a) a sign and
a digit in the place of a key become a number, without a comma before it (`C66_number_key_witness`); (b) two backticks at the
end of the input inside of an object; (c) control characters after a backslash stay as they are; (d) characters that are
not ASCII stay after a backslash although `ensure_ascii` is set. The theorems name the pairs of input bytes without which
this does not occur.

C67 **salvage understands**, C68 **salvage keeps JSON**. `Lenient` has the language of texts like JSON with their values
(`Reads`) and compact JSON texts with their values (`Writes`), both as inductive relations on code points that know nothing of
the processor. C67: for a text of the language the output is a JSON text of its values; C68: JSON is in the language, with
its values (`Denotes`). Proof: `Reach` says that a text leads from one state between values to another at the latest when
what follows is seen; by induction on `Reads`, with lemmas for fillers, strings, numbers, words and atoms; the rules do not
look at the output (`Frame`), so chunks do not matter; the bytes of a character are read as the character. Outside of the
language, and why (examples in `Theorems`): `/***/` is not a closed comment (the second of two asterisks is not seen as one);
numbers in base 16, 8 and 2 wrap beyond 64 bits; in triple quotes a backslash right after one or two quotes is literal; the first half of
a surrogate pair is not replaced before an escape that is kept, so that the replacement comes later or halves that are not
adjacent are joined; empty backticks are no empty string; a closing bracket at the top level before all values makes the
output begin with a newline; halves of surrogate pairs in JSON strings are replaced by U+FFFD.

C69 **salvage closes what is open**. `Cut` (in `Lenient`) extends the language with texts that end in a string, an array, an
object, behind a key or in a comment. Proof (`CutTexts`): closing all containers at the end is the same as reading closing
brackets, so the cases are those of C67. Outside of it: two backticks at the end (see C66), a single slash (read as a word).

C70 **what is not UTF-8**. `Decodes` (in `Lenient`) relates bytes and texts, for all bytes (`C70_total`). Proof (`Malformed`): the
bytes of each case lead to the same state as its character; the rules do not look at the bytes of an unfinished character.
C59 and C60 are also proved for salvage.

C71 **the walk of the recursive operators**, C72, C73 **deep_uuid** (`Verif/Traverse`). `TraverseHelper` (the transitions of an
item with its schema), `Traverser` (depth first search with a stack, then visits in post order) and `DeepUuidVisitor` are
transcribed, with the error checks. The bag is given by what its read functions return; the hash functions are those of
`Verif/Uuid`. `Spec` says which items an item refers to (`Ref`, `Edge`), `UuidSpec` which value an item counts as (`Value`, an
inductive relation), `Same` when two items have the same content. Proofs: an invariant on the search (`Good`) that gives the
order and ownership of every entry on the stack, an invariant on the visits (`Visits`) that says that every stored id is the value of
its item, a measure for termination (`Stop`). `Decides` (an operator's choice of references does not depend on what it has seen)
holds for `deep_uuid` (`decides_uuid`). Not modelled: texts of errors, cancellation, that a bag can return the items of a
dict in any order (any order is allowed), the wrapper of the operator. Findings: (a) an ITEMID attribute equal to the id of its
own item counts as a self reference if the item is on a cycle (`C73_itemid_clash`); (b) for a dict with keys of equal content the order counts
(`C73_dict_with_equal_keys`); (c) all items under a NoFollow schema get the same uuid; (d) a list or dict schema with a name or metadata
is an error ("unexpected attributes"); (e) an id used with two different schemas is visited with each of them, but only one id is kept for it, so C72
asks for one schema.

C74 **deep equivalence**, C75 **compatible schemas** (`Verif/Compare`). `DeepComparator` (a stack of pairs of items, a map of
the pairs that were seen, the merge of the sorted transitions of both items) and its two uses are transcribed, on top of the
`TraverseHelper` of `Verif/Traverse`. `Spec` names the parts of an item (`Has`), says when two items agree (`Agree`: there is a
simulation; `Equivalent` and `Compatible` are `Agree` with two sets of rules), and which differences matter (`Matters`). Proofs: the order
of the keys is an order on all keys that occur, so the merge pairs exactly the same labels (`Order`); an invariant on the loop
(`Inv`) ties tokens, stack, differences and saved transitions to `Together`; no difference matters exactly if all
items agree (`no_difference`). Parameters: the order of values of the same type (`ValueOrder`; `exLt_ok` is one). Not modelled: the bag with the
result and the paths in the messages; the map of tokens does not tell numbers of the same value apart (nothing is reachable from them). Findings: (a) when schemas are not
compared the comparison is not symmetric: an item with schema ITEMID on the right is compared by kind only (`C74_not_symmetric`); (b) numbers are compared by value (INT32 with INT64, FLOAT32
with FLOAT64), but as keys of dicts with their types (`C74_dict_keys`); (c) OBJECT is not castable to OBJECT in
`IsProbablyCastableTo`, so two schemas with the same attributes, one of them OBJECT, are incompatible (`C75_object`).

C76 **select**, C77 **inverse_select**, C78 **broadcasting and align**, C79 **reverse**, C80 **unique**, C81 **subslice and take**,
C82 **group_by_indices**
(`Verif/SliceOps`). A slice is a list of edges (sizes of groups) and a flat list of items, as in the code, and the operators are
transcribed with their loops over flat arrays. `Spec` sees a slice as a nested list (`view`; `C78_view_determines` says that this
loses nothing) and says what each operator does to nested lists: `selectNode`, `unselectNode`, `spread`, `reverseNode`, `distinct`,
`choose`. Proofs: `nest` turns flat items into nested lists and commutes with mapping, zipping and cutting (`Nest`); each operator
is a function of the rows of the last dimension, or of the parts at the depth of the filter. For subslice, chosen indices
stand for parts of the nested list (`stateOf`), and each argument takes the state one dimension further (`stepArg_spec`). Trusted: the
operators of arolla on edges and dense arrays that the code calls, modelled by what they return (`expand`, `keep`, `fill`,
`splitPoints`, `shapeOk`). Parameters of unique: the equality, the order and NaN of the type of the items. Not modelled: bag and schema of the
results, evaluation of functors as filters, the casting of indices to INT64. Finding: for items of mixed types NaNs are not the same in unique, since `IsNan<DataItem>` is
never true (`C80_mixed_nan`).
group_by_indices: the numbering of the groups of a row satisfies an invariant (`NumInv`), sorting permutes the numbers (`sortGroups_spec`), each
key refines the numbers of the keys before it (`step_same`, `step_increasing`), and the final counting sort lists the positions of each number
(`createFinal_spec`). `C82_determined`: the description leaves only one result. Finding: with sort and NaN keys the comparison given to
`absl::c_sort` is not a strict weak ordering (NaN is equivalent to everything, but not transitively), so `C82_sorted` asks for keys that are numbers;
NaN keys never form a group together, while unique keeps one NaN.

C83 **async_eval** (`Verif/AsyncEval`).
A program is a list of futures: sources, set from outside, and calls of `async_eval` with values and futures as inputs. A step is a critical section of
a future or a countdown, or a task of the executor; the consumers that are to be called, the errors that are to be set and the calls of `Schedule` that are to
be made are in lists from which any can be next. The invariant (`Inv`) follows every input that is a future: it is to be registered, a consumer of the
future, to be called, or done, and in exactly one of these places; the countdown counts those that are not done; and for each result
there is exactly one thing that sets it, or none if nothing is decided yet. `measureOf` gets smaller in every step. Simplified: the countdowns exist from the
start; values are of the type of the future and not futures (else the code stops the process). Parameters: the operators, the three errors. Trusted: an executor runs or drops every
task once. Not modelled: cancellation contexts, memory.

C84 **deep_clone** (`Verif/Clone`). `DeepCloneVisitor` and `DeepCloneOp` are modelled function by function on top of the `Traverser`
of `Verif/Traverse` (its theorems were generalised to visitors that do not follow everything). `Spec` says what is reached (`Reached`:
everything but explicit schemas), what a copied value is (`copied`) and what a clone is (`IsClone`, `Content`: what has to be in the
new bag, and that nothing else is in it). `Tracker` and `Ids` prove the invariants of `allocation_tracker_` (each entry is an allocation
like the old one, a new explicit schema, or the implicit schema of a tracked object), `Cells` and `Visit` that each write of a visit is
a write of the copy and that two visits of one item write the same, `Whole` puts it together (`C84_clone`), `Explicit` characterises the
explicit schemas that are passed to `extract` (`C84_schemas`), `C84_ends` is from `traverse_stops`. `Search` and `Succeeds` prove that neither the search nor
the visits fail for well-typed data without metadata (`Clonable`), so the result is a clone (`C84_succeeds`). Hypotheses: `Ordinary` data (implicit
schemas belong to their object and are not declared anywhere, one item is not reached with two schemas), allocations that are new
(`NewIds`), no collisions of the hash for the implicit schemas at hand (`NoCollision`). Not modelled: slices of schemas and schema
metadata, the content of explicit schemas (copied by `extract` at the end, deep_clone.cc:582-595), the checks of `SetSchemaAttr`.
Findings: an item that is reached with an implicit schema but not as an OBJECT gives an error ("object is not tracked"), a missing item with an
implicit schema hits a failed check; cloned implicit schemas lose their schema name; implicit schemas used as values whose object is
not reached become explicit schemas.

C85 **calls of functors**, C86 **creation of functors**, C87 **the cache of functors** (`Verif/Functor`).
`Model` transcribes `GetVariableEvaluationOrder` (the walk with an explicit stack), `InlineAllVariables`, `CreateFunctor`
and the call; binding of arguments is that of `Verif/Binding`. `Spec` has the dependency relation of variables (`Uses`, `Reached`,
`GoodOrder`) and a big-step semantics of expressions with variables (`Evals`) that knows nothing of orders or inlining, and says for
each error what is wrong (`Raises`). `Order` proves the invariant of the walk, `Inline` that inlining in that order leaves no variables and
keeps the meaning, `Eval` that evaluation is sound and complete. C87 models the metadata cache of bags, with calls split into lookup and storing so that
they can overlap; the invariant (`CacheInv`) says that a cached value belongs to an immutable bag and is what processing the visible functor gives.
Parameters: operators (with errors), the kinds of values, attaching a bag. Simplified: a functor is in one bag with all its attributes; python functors are
operators. Not modelled: the compilation cache of arolla, cancellation, stack traces of errors. Observation: an expression with `V.__signature__` is
rejected when the functor is created, although a comment in functor.cc says that the list of names has to include it (an example shows it).

C88 **while_** (`Verif/While`). The loop is transcribed with a bound on the iterations, since it may not end; `C88_stable` says that the bound
does not matter once it is large enough. `Spec` describes a run by the list of updates that the body returned (`Ran`, `valueOf`, `yielded`), `iteration_spec`
says that an iteration ends the loop, continues it with an update, or is wrong (`WrongIteration`), and these exclude each other. `C88_forever`: it never ends
exactly if there is an infinite list of updates. Parameters: values and their types, what calls of functors return (as a function of the arguments).
Not modelled: `yields_interleaved` beyond the sequence of its values (the order of interleaving is random).

C89 **TrampolineExecutor** (`Verif/Trampoline`). `stack_`, `buffer_`, `FlushBuffer` and the loop are transcribed; callbacks are an arbitrary type with a
function that says how a call changes the state, what it enqueues and what it returns. `Spec.Runs` is the recursive program as a big-step relation. Proof: the
reversed stack is the list of what is to be done (`ready`), and both directions of `C89_run` follow by induction on the iterations and on `Runs`.

C90 **map and map_reduce_update** (`Verif/MapFn`, on top of `Verif/SliceOps`). `ForEachAlignedItem`, `CallFunctorOnItem`, both callbacks, stacking of items with
`AlignSchemas`, and `AdoptionQueue` for bags are transcribed; the model also records the calls. `Spec` says what happens at one position (`MapsTo`, `UpdatesWith`), that
positions are done in order up to the first error (`Done`, `Stopped`), and how the items or bags of all positions become the result (`Combined`, `Reduced`). The
aligned slices are those of C78. `C90_determined`: the description of a position determines what happens. Parameters: calls of functors, common schemas, casts,
merging of one bag into another. Not modelled: the bags of the slices, the schema of the functors.

C91 **Serialization of slices** (`Verif/S11n`). `EncodeDataSliceImpl` with `AddSliceElementToProto` and blocks, `DecodeDataSliceCompactProto` with its
loops over types and parts, line by line (loops that C++ ends by a condition have fuel, shown to suffice). `Spec.lean`: which messages stand for which items
(`Encodes`), and sizes. `C91_decode`: the decoder accepts exactly these messages; `C91_encode`, `C91_roundtrip`, `C91_blocks`. Parameters: values (with the length
of texts and the valid dtypes). Not modelled: protobuf wire format, `DataItemVectorProto`, which of several errors is reported (the model has errors, no theorem
speaks about them). Found: values in further parts of types that do not occur among the items are silently ignored, while in the main part they are an error
(decoder.cc:447-475 looks at the main part only); the last example shows it.

C92 **Saving and loading the attributes of a bag** (`Verif/BagSave`, on top of `Verif/BagAttr`). `CreateIndex`, `ExtractAttrContent`, `EncodeAttribute`,
`DecodeAttrProto` are transcribed; orders of hash maps and sorting are an arbitrary permutation. Proof: loading is a sequence of writes to different places
(`Load.lean`); what is written is what `lookup` sees (`Extract.lean`). Not modelled: lists, dicts, schema objects, bag ids, the encoding of the values (C91), bags
with fallbacks (they are lists of bags without). Findings: (a) `SetAttrFullAlloc` ignores a slice without values (data_bag.cc:1160, the comment says that all values are
unset), but the slice may consist of removed values; so saving and loading a bag in which an attribute of all objects of an allocation was removed loses the
removal, and a fallback's value is visible again: `C92_removals_lost` is a witness, and the exception is part of `SavedAt`; (b) `DecodeDataBagValue` reads
`input_values[i]` for `i < fallback_count` without checking that there are so many (decoder.cc:691); not in the model.

C93 **The signature check of functor substitution** (`Verif/SigCompat`, on top of `Verif/Binding`). `assert_signatures_compatible` is modelled line by line on the
parameters of C43; a call "works" if `BindArguments` binds it. `inspect.Signature.bind` belongs to the python library: modelled by its documented behaviour (that of
python 3.13; before, it also rejects a keyword with the name of a positional-only parameter when there is a `**kwargs`, which can only lead to more rejections).
`C93_rejects`: an error is justified by a call. `C93_passes`: the exact condition. `C93_compatible`: if the check passes and the signatures are `Aligned`, all calls
carry over. Finding: the docstring ("if there is one way of invoking old_fn that would crash when calling new_fn ... this function will raise") is false of the code;
`C93_missed` has a witness for each condition, e.g. `(x, y)` replaced by `(y, x)` passes, and `f(1, y=2)` crashes afterwards; `(x=0)` replaced by `(*args)` passes, and
`f(x=1)` crashes (the docstring's rule 1 says "every argument that can be passed as keyword in old_fn must be allowed to be passed as keyword in new_fn").
Not modelled: the traversal of `sub` itself, and error messages.

C94 **Visiting functors and substitution** (`Verif/Visitor`). `_visit_functor` with its stack and its table of results, for callbacks with state and errors; functors
are items with variables in an order of evaluation (a parameter; C85 says what it is) and attributes. `C94_visits` gives the list of calls, `C94_fails` the reason of
every error and that a depth of the number of functors suffices (python's own recursion limit is not modelled), `C94_value` the meaning for pure callbacks. `C94_sub` and
`C94_sub_by_name` (with `_fails`) are about the two callbacks of substitute.py. Simplified: `with_attrs` gives an item with changes (`Tree`); that the changes are kept
in one bag with the original is not modelled. `full_equal` is a parameter, assumed to be an equivalence for "no clash" (it is not for NaN: two functors with a variable
NaN of the same name always clash). What the code does and the documentation does not say: the root itself is never replaced, all attributes are candidates for a
replacement, also those that are not variables, and functors in attributes that the result does not need are not visited.

C95 **sanitize_names** (`Verif/Sanitize`). The functions on names, the sets of used and mapped names for each schema, the order of names and the loop for suffixes are
transcribed; the traversal (C73, C84 model it) is a list of visits, each with a schema and its attributes. `Spec` says what an identifier, a decimal number, the
choices for a name and a renaming are. `C95_renames` (the search ends by counting: the choices are distinct), `C95_agree`, `C95_sanitize_name`. Hypothesis: visits with the same
schema have the same names, because names come from the schema; `C95_late` shows that without it two attributes can get one name. `C95_order`: the comment in the code says
that suffixes are deterministic, but they depend on which item of a schema is visited first if that item lacks some of the colliding attributes. Simplified: `int` counters
do not overflow, writes to the new bag (lists, dicts, ids stay as they are) are not modelled.

C96 **flatten_cyclic_references** (`Verif/Flatten`). `FlattenCyclicReferencesOp` with its stack, its marks and its counters is transcribed for data: items (with schema) have
keys with values, given by a function that can fail. `Spec` says what a forest is (`Forest`, with the chain of items from a root for each copy) and what following keys gives
(`Old`, `New`). `C96_forest` is by an invariant of the loop (`Inv`: marked entries of the stack are the chain, counters count it) and a measure (`work`); `C96_limit`, `C96_all`,
`C96_succeeds` and `C96_follow` follow from `Forest`. Finding: the documentation calls `max_recursion_depth` the maximal number of times an item can be on a way, but it is
one less than that number. Not modelled: copies of schemas and metadata (they keep their ids or get ids derived from their object; each explicit schema is visited once), the
writes of each kind of transition, the error for dict keys that are items (part of the errors of reading), negative depths (items are then copied without contents).

C97 **SliceBuilder** (`Verif/SliceBuilder`). The builder is transcribed with its storage states (empty, first storage, map), the current type, borrowed buffers that are copied to
builders on demand, the buffer of types and the count of unset elements, and `Build` with the removal of types without values, and `operator[]`. Null pointers are `none`. The
specification is one line: the first offer of a call for an element counts (`outcome`). Proved by an invariant (`Good`) that relates the states to a list of storages (`Holds`).
Views of one type (`TypedBuilder`) are modelled as runs of calls. Not modelled: allocation ids, more than 253 types, SIMD code for bitmaps, the memory of the hash map (pointers to elements are looked up again).

C98 **TypesBuffer** (`Verif/TypesBuffer`). Bytes and words are bit vectors; the loops of `ToBitmapImpl` (halves of words, words, the rest) are transcribed. `C98_bitmap` is by
induction over the loops, `C98_set`, `C98_types` and `C98_init` are about the other functions of the buffer. Trusted: the SSE2 instructions of `GetEqualityMask16` do what the loop
beside them does. Not modelled: `ToPresenceBitmap` (a builder of Arolla).

C99 **Coalesce** (`Verif/Coalesce`). `PresenceOrOp` and `PresenceAndOp` on slices are transcribed on top of the builder of C97, with the paths for one type and for mixed types and the
comparison of counts that finds overlaps. `C99_coalesce` and `C99_disjoint` are for all slices that meet `Ok` (one array per type, at most one value per element). Finding:
the overload for a slice and an item reports an overlap if the slice has a type but no value (`C99_item_overlap_finding`). `kd.disjoint_coalesce` does not reach it, because
`DataSliceOp` broadcasts items unless both orders of arguments are defined. Not modelled: allocation ids, schemas, shapes, the payload of the error.

C100 **Masks and defaults** (`Verif/Coalesce`). `PresenceDenseArray`, `PresenceAndOp` and `CoalesceWithFiltered` on slices and items; `C100_default` follows from `C100_mask`,
`C100_has` and `C99_coalesce`. Not modelled: the error for a second argument that is no mask (masks are lists of bools), the schemas of `GetAttrWithDefault`.

C101 **Equal** (`Verif/EqualOp`). `EqualOp` of items and of slices, with the loops over pairs of arrays; `==` of values is a parameter. `C101_equal` is by induction over both loops,
`C101_symm` follows. Not modelled: how a dense operator of Arolla runs on missing values.

C102 **New ids** (`Verif/NewIds`). Both loops of `NewIdsLike`; an id is the kind of its new allocation and an offset. By induction over the slice. Not modelled: how allocations get their
ids (C31), the set of allocation ids.

C103 **Columns of indices** (`Verif/Reshape`). Slices are nested lists of any depth, nested dicts the items that were written to them. `C103_roundtrip` is by induction over the
dimensions, `C103_exact` says when nothing is lost. Finding: the comment at npkd.py:107-111 says that the functions are inverse, but rows
without elements at the end are lost (`C103_not_identity`), since the sizes come from the largest keys. Trusted: a key with a missing value stays a key of a dict (dict.cc).

C43 **BindArguments**, C49 **stored signatures** (`Verif/Binding`).
`Signature::Create`, `BindArguments`, `DefaultKodaSignatureFromInputs` and the
conversion of signatures to and from Koda objects are transcribed. The
specification is the rules of python: which parameter lists are a signature
(`PyValid`), which calls are bound and to what (`PyBinds`), and for every error
what is wrong (`WrongSignature`, `Wrong`). Proved: a signature is created
exactly if valid; a call is bound to values exactly if python binds it to these
values; every error is true; the default signature; stored signatures read back.
Finding: a default value equal to the marker for "no default" is lost when the
signature is stored (an example shows it), so C49 excludes it. Trusted:
`arolla::MakeNamedTuple` rejects duplicate field names. Not modelled: the
`Unspecified` values of arolla's operators, evaluation of the functor.

## Not modelled

Arolla (dense arrays, expressions, evaluation), memory management, numeric
semantics of floating point, serialization formats, performance.
