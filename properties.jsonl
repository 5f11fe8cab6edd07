{"id": "C01", "title": "Storage cache never exceeds its byte budget and its accounting is exact", "statement": "After any sequence of get / set / remove / clear / set_max calls with non-negative size estimates, get_total_bytes_of_entries_in_cache() equals the sum of the estimates of the entries that get() can still return, and it is at most the current maximum.", "quantifier": "every initial budget and every finite sequence of cache operations, keys, values and non-negative size estimates", "why_tests_cant": "the invariant ranges over unbounded operation histories; a unit test fixes one history", "anchors": ["py/koladata/ext/storage/lru_size_tracking_cache.py: LruSizeTrackingCache.set, remove, clear, set_max_total_bytes_of_entries_in_cache, _shrink_cache_to_at_most"]}
{"id": "C02", "title": "Storage cache evicts strictly in least-recently-used order and no more than needed", "statement": "When an insertion or a budget reduction evicts entries, the evicted ones are exactly the shortest run of least recently used entries whose removal makes the rest fit; every more recently used entry survives in the same recency order; a get or a set of a present key makes it the most recently used one.", "quantifier": "every reachable cache content and every insertion or budget change", "why_tests_cant": "minimality and order of eviction depend on the whole access history", "anchors": ["py/koladata/ext/storage/lru_size_tracking_cache.py: LruSizeTrackingCache.get, set, _shrink_cache_to_at_most"]}
{"id": "C03", "title": "Storage cache is a faithful first-write-wins map", "statement": "get(k) returns a value v only if v was the argument of the set(k, v) that inserted the current entry, i.e. the earliest set since k was last absent; set returns that same value; a value larger than the whole budget is returned but never stored and evicts nothing; operations on other keys never change the value seen for k other than by making it absent.", "quantifier": "every finite history of operations", "why_tests_cant": "unbounded histories; correctness of all get results relative to the history", "anchors": ["py/koladata/ext/storage/lru_size_tracking_cache.py: LruSizeTrackingCache.set, get, remove, clear"]}
{"id": "C04", "title": "cache_fn is transparent for pointwise functions", "statement": "If fn is a deterministic pointwise function that maps missing arguments to a missing result and distinct arguments have distinct cache keys, then a function wrapped by cache_fn returns at every position what fn would return for that position's arguments, whatever subset of earlier results the LRU cache still holds, and calls fn only on the positions that were not cached hits; entries written keep the cache consistent for all later calls.", "quantifier": "every sequence of calls, every slice of arguments, every eviction behaviour of the cache, with or without is_hit_fn", "why_tests_cant": "depends on all reachable cache contents and eviction interleavings", "anchors": ["py/koladata/caching/lru_cache.py: cache_fn", "py/koladata/caching/clib.cc: LruCache Get/Set"]}
{"id": "C05", "title": "DataSlicePath string form round-trips", "statement": "Parsing the string form of any data slice path gives back the same path, for every list of actions and arbitrary attribute names (identifier or not), hence different paths have different string forms.", "quantifier": "all finite action lists with arbitrary (unicode) attribute names", "why_tests_cant": "infinite domain of names and path lengths, including names containing dots, brackets, quotes and parentheses", "anchors": ["py/koladata/ext/storage/data_slice_path.py: DataSlicePath.parse_from_string, to_string, GetAttr._parse..., _parse_data_slice_path_actions"]}
{"id": "C06", "title": "DataSlicePath parsing is total and unambiguous", "statement": "For every input string parsing either raises ValueError or returns a path whose canonical string parses to the same path; accepted strings are exactly the concatenations of the documented action spellings.", "quantifier": "all strings", "why_tests_cant": "infinite input space", "anchors": ["py/koladata/ext/storage/data_slice_path.py: parse_from_string and action parsers"]}
{"id": "C07", "title": "Path enumeration is complete, duplicate free and ordered by depth", "statement": "generate_data_slice_paths yields exactly the paths valid for the schema with depth at most max_depth (all of them when max_depth is -1 and the schema is acyclic), each exactly once, in non-decreasing depth.", "quantifier": "every schema graph (cyclic included) and every max_depth", "why_tests_cant": "cyclic schemas give infinitely many paths; completeness cannot be enumerated", "anchors": ["py/koladata/ext/storage/data_slice_path.py: generate_data_slice_paths"]}
{"id": "C08", "title": "Adding bags is crash atomic", "statement": "If the process dies at any point while bags are being added, a manager re-opened on the directory sees either the state before the call or the state after it, with every listed bag readable and its content as given; files left behind by the crash are never visible.", "quantifier": "every history of successful adds, every crash point inside the next add", "why_tests_cant": "needs all crash points in all histories", "anchors": ["py/koladata/ext/storage/data_bag_manager.py: _add_bags, _persist_metadata, _read_latest_metadata, create_from_dir"]}
{"id": "C09", "title": "Concurrent writers of one persistence directory never corrupt it", "statement": "On a file system whose rename without overwrite is atomic, when several manager instances add bags to the same directory with any interleaving of their file system steps, for each update number at most one instance succeeds, all others raise, and the sequence of committed metadata is a linear history in which every committed add extends the previously committed state.", "quantifier": "any number of instances, any interleaving of steps, any crash of some of them", "why_tests_cant": "schedules cannot be enumerated by tests", "anchors": ["py/koladata/ext/storage/data_bag_manager.py: _persist_metadata (rename overwrite=False), _add_bags"]}
{"id": "C10", "title": "Loading a bag loads exactly its dependency closure in a dependency respecting order", "statement": "get_minimal_bag / load_bags / extract_bags use exactly the reflexive-transitive closure of the dependencies of the requested names (and the dependents, when asked), each bag once, and every bag is applied after all of its dependencies; unknown names raise ValueError.", "quantifier": "every sequence of adds and every set of requested names", "why_tests_cant": "arbitrary dependency DAGs", "anchors": ["py/koladata/ext/storage/data_bag_manager.py: _get_dependency_closure, _get_reflexive_and_transitive_closure_image, canonical_topological_sorting, get_minimal_bag"]}
{"id": "C11", "title": "Branches of a bag manager are faithful and isolated", "statement": "A branch created for a set of bag names offers exactly the closure of these names with the same dependencies, the same custom metadata and the same bag contents as the original, and later adds to either side never change what the other side sees.", "quantifier": "every original history, every choice of names, every interleaving of later adds on both sides", "why_tests_cant": "unbounded histories on both sides", "anchors": ["py/koladata/ext/storage/data_bag_manager.py: create_branch, _get_bag_filepath"]}
{"id": "C12", "title": "Bag names, dependencies and metadata only grow and stay valid", "statement": "In every reachable state bag names are unique, every dependency of a bag is a bag that was added before it, and a successful add appends the new bags in the given order without changing the earlier ones; an add with a duplicate name or an unknown dependency raises and changes nothing.", "quantifier": "every history of adds with arbitrary arguments", "why_tests_cant": "invariant over all histories", "anchors": ["py/koladata/ext/storage/data_bag_manager.py: add_bags validation, _add_bags"]}
{"id": "C13", "title": "Revisions are immutable and the revision history is append only", "statement": "Opening the manager at revision index i always shows the same data and schema whatever updates were made later, and the revision history of a later state extends the earlier one; revision numbers are consecutive.", "quantifier": "every history of updates and every index", "why_tests_cant": "unbounded histories", "anchors": ["py/koladata/ext/storage/data_slice_manager.py: update, create_from_dir(at_revision_history_index), get_revision_history, _persist_metadata"]}
{"id": "C14", "title": "An update of a data slice manager is crash atomic", "statement": "If the process dies anywhere inside update (including between the commits of the three underlying bag managers) re-opening the directory shows exactly the old or exactly the new revision, and a later update made after re-opening succeeds and is seen completely.", "quantifier": "every history and every crash point", "why_tests_cant": "needs all crash points", "anchors": ["py/koladata/ext/storage/data_slice_manager.py: update, _persist_metadata", "py/koladata/ext/storage/data_bag_manager.py: _add_bags"]}
{"id": "C15", "title": "A stale manager cannot overwrite another writer's update", "statement": "If another instance committed an update after a manager instance was opened, every update through the stale instance raises and readers that open the directory keep seeing exactly the committed revisions.", "quantifier": "every interleaving of updates by any number of instances", "why_tests_cant": "schedules", "anchors": ["py/koladata/ext/storage/data_slice_manager.py: update, _persist_metadata"]}
{"id": "C16", "title": "Branches of a data slice manager start at the chosen revision and are isolated", "statement": "branch(i) for a valid (possibly negative) index creates a manager that shows exactly revision i of its parent with one history entry naming the parent directory and the normalised index; an out of range index raises; later updates of parent or branch are invisible to the other.", "quantifier": "every parent history, every index, all later interleavings of updates, branches of branches included", "why_tests_cant": "unbounded histories", "anchors": ["py/koladata/ext/storage/data_slice_manager.py: branch, _get_dir_for_new_branch"]}
{"id": "C17", "title": "The set of schema nodes loaded for a request is exactly what is needed", "statement": "get_schema_node_names_needed_to returns exactly the nodes on some path from the root to a requested path, plus the requested nodes and, for populate_including_descendants, everything reachable from them; it is monotone in the request and raises ValueError iff some requested path is not valid for the schema.", "quantifier": "every schema graph (cycles and diamonds included) and every request", "why_tests_cant": "arbitrary graphs", "anchors": ["py/koladata/ext/storage/schema_helper.py: SchemaHelper.get_schema_node_names_needed_to, _get_transitive_closure_image, _get_converse_relation, _analyze_schema"]}
{"id": "C18", "title": "Schema node names identify schema nodes", "statement": "Two schema nodes reached by paths get the same name only if they are the same item-id schema, or the same primitive schema reached by the same action from the same parent node.", "quantifier": "all schemas and paths", "why_tests_cant": "injectivity over an infinite domain", "anchors": ["py/koladata/ext/storage/schema_helper.py: get_schema_node_name"]}
{"id": "C19", "title": "View.map broadcasts and maps pointwise", "statement": "Mapping a function over views of different depths yields a view of the largest depth whose item at index path p is the function applied to each argument's item at the longest prefix of p inside that argument; it is None iff some item is None (unless include_missing); it raises exactly when two arguments have tuples of different lengths at a shared position.", "quantifier": "all nested tuples, all depths, any number of arguments, any function", "why_tests_cant": "arbitrary nesting depth and width", "anchors": ["py/koladata/ext/view/view.py: map_, View.map, _map1, _map2", "py/koladata/ext/view/clib.cc: map_structures"]}
{"id": "C20", "title": "View.flatten, implode and explode are inverse where documented", "statement": "implode(n).explode(n) returns the original view; flatten preserves the left-to-right sequence of items, merges exactly the chosen dimensions and follows python slice clamping for negative and out of range arguments; invalid arguments raise ValueError.", "quantifier": "all views and all integer arguments", "why_tests_cant": "infinite domains", "anchors": ["py/koladata/ext/view/view.py: View.flatten, implode, explode"]}
{"id": "C21", "title": "View.select followed by inverse_select restores positions", "statement": "select(filter) keeps exactly the items whose filter is present, in order; inverse_select(filter) of the result puts every kept item back at its original position and None elsewhere, and raises when the number of items does not match the number of present filter entries.", "quantifier": "all views and filters", "why_tests_cant": "arbitrary structures", "anchors": ["py/koladata/ext/view/view.py: _select_impl, _inverse_select_impl, View.select, inverse_select"]}
{"id": "C22", "title": "View.group_by partitions the items", "statement": "group_by splits the items of the last dimension into groups of equal keys: groups appear in order of first occurrence (or of sorted keys when sort=True), inside a group the original order is kept, items with a missing key are dropped and every other item occurs in exactly one group.", "quantifier": "all item lists and key tuples", "why_tests_cant": "all inputs", "anchors": ["py/koladata/ext/view/view.py: _group_by_impl, View.group_by"]}
{"id": "C23", "title": "View.collapse returns the common value or nothing", "statement": "collapse gives v for a position iff v is the only non-missing value below it; it gives None if all are missing or two differ.", "quantifier": "all views", "why_tests_cant": "all inputs", "anchors": ["py/koladata/ext/view/view.py: _collapse_impl, View.collapse"]}
{"id": "C24", "title": "Koda lists behave as lists of optional values whatever their storage", "statement": "Any sequence of set, insert, remove, resize, insert-missing and set-missing calls on a Koda list gives the same contents as on a plain sequence of optional values, independent of whether the list is stored as all-missing, as a typed vector or as a mixed vector.", "quantifier": "every operation sequence and every mixture of value types", "why_tests_cant": "representation switches depend on the history", "anchors": ["koladata/internal/data_list.{h,cc}: DataList::Set, Insert, Remove, InsertMissing, Resize, SetMissingRange, ConvertToDataItems, ApplyDataItemOrT"]}
{"id": "C25", "title": "Forked lists are copy on write", "statement": "After a bag is forked, changing lists in the fork never changes what is read from the original, lists not changed in the fork read as in the original, and this is independent of whether the fork stores its lists in map mode or array mode.", "quantifier": "every chain of forks, every sequence of changes", "why_tests_cant": "mode switches depend on sizes and history", "anchors": ["koladata/internal/data_list.{h,cc}: DataListVector::Get, GetMutable, ShouldUseArray, Map::ConvertToArray"]}
{"id": "C26", "title": "Koda dict lookup through parents and fallbacks agrees with key listing", "statement": "For a dict with parent and fallback dicts, keys are listed without duplicates, the i-th listed value is the value that lookup returns for the i-th listed key, a key is listed iff some layer defines it, and earlier layers take precedence.", "quantifier": "all chains of layers", "why_tests_cant": "arbitrary chains and key sets", "anchors": ["koladata/internal/dict.{h,cc}: Dict::Get, GetKeys, GetValues, KeyValueCollector, FindFirstNonEmpty, GetSortedKeys, GetSortedByKeyValues"]}
{"id": "C27", "title": "Clearing a dict removes exactly its visible keys", "statement": "After clear, every key that the dict or its parents defined reads as removed (and keeps hiding fallback values), every other key is unaffected, and parents are unchanged; size and modified-key listing agree with lookup.", "quantifier": "all chains of layers and keys", "why_tests_cant": "all inputs", "anchors": ["koladata/internal/dict.{h,cc}: Dict::Clear, Set, GetOrAssign, GetModifiedKeys, GetSizeNoFallbacks"]}
{"id": "C28", "title": "Common schema is the least upper bound", "statement": "The common schema of a collection of schemas is their least upper bound in the promotion order generated by the documented edges (NONE below everything, INT32<INT64<FLOAT32<FLOAT64<OBJECT, ...); it exists iff an upper bound exists; it does not depend on order, repetition or grouping of the collection.", "quantifier": "all finite collections of schemas, entity schemas included", "why_tests_cant": "unbounded collections and all orders", "anchors": ["koladata/internal/schema_utils.{h,cc}: GetDTypeLattice, GetReachableDTypes, GetMatrixImpl, CommonDTypeAggregator::Get, CommonSchemaAggregator::Add, Get"]}
{"id": "C29", "title": "Implicit castability is a partial order compatible with common schema", "statement": "IsImplicitlyCastableTo is reflexive, transitive and antisymmetric, and a is castable to b iff the common schema of a and b is b.", "quantifier": "all pairs and triples of schemas", "why_tests_cant": "infinitely many entity schemas", "anchors": ["koladata/internal/schema_utils.{h,cc}: IsImplicitlyCastableTo"]}
{"id": "C30", "title": "Base62 encoding of item ids is a bijection onto 22 character strings below the range limit", "statement": "Encoding any 128 bit id yields 22 base62 characters, decoding gives back the id, the encoding is the usual positional numeral, and string order equals numeric order.", "quantifier": "all 2^128 ids", "why_tests_cant": "2^128 inputs; division is done by a modular inverse", "anchors": ["koladata/internal/op_utils/base62.cc: Base62Repr, DivideBy62Power10, DecodeBase62"]}
{"id": "C31", "title": "Item ids allocated by one process never collide", "statement": "Any two ids obtained from allocations in any threads in any interleaving are different, and ids of different allocations never share an allocation.", "quantifier": "any number of threads and allocations up to counter exhaustion, any interleaving", "why_tests_cant": "schedules and huge counters", "anchors": ["koladata/internal/object_id.{h,cc}: Allocate, AllocateSingleObject"]}
{"id": "C32", "title": "An id is determined by its allocation and offset", "statement": "For every id, its allocation contains it and indexing the allocation by the id's offset returns it; an allocation contains exactly the ids built from its offsets; an allocation of size n has capacity the least power of two at least n.", "quantifier": "all ids and sizes", "why_tests_cant": "2^128 ids", "anchors": ["koladata/internal/object_id.{h,cc}: AllocationId, Contains, ObjectByOffset, Offset, Capacity, Allocate"]}
{"id": "C33", "title": "Allocation id sets behave as sets", "statement": "After any sequence of inserts and unions the set contains exactly the big allocations inserted (each once) and the small-allocation flag iff a small one was inserted; insert reports newness; two sets compare equal iff they have the same members, in both the small sorted and the large mode.", "quantifier": "all operation sequences, including crossing the size threshold", "why_tests_cant": "mode switches at 30 elements depend on history", "anchors": ["koladata/internal/object_id.{h,cc}: AllocationIdSet::Insert, InsertBigAllocationSlow, operator=="]}
{"id": "C34", "title": "nofollow and get_nofollowed are inverse and flags are preserved", "statement": "get_nofollowed_schema(nofollow(s)) = s for every schema for which nofollow is allowed; nofollow fails exactly for non-OBJECT dtypes, non-schemas and already nofollow schemas; nofollow schemas are schemas and differ for different inputs.", "quantifier": "all schema items", "why_tests_cant": "all ids", "anchors": ["koladata/internal/schema_utils.{h,cc}: NoFollowSchemaItem, GetNoFollowedSchemaItem", "koladata/internal/object_id.{h,cc}: CreateNoFollowWithMainObject, GetOriginalFromNoFollow"]}
{"id": "C35", "title": "Uuids do not depend on the order of the fields", "statement": "kd.uuid / uu / uu_schema / uu dict ids computed from the same seed and the same set of (name, value) pairs are equal whatever the order in which they are given, equal for item and slice inputs position by position, and different pairs give different hash inputs.", "quantifier": "all seeds, all field lists and permutations", "why_tests_cant": "all permutations", "anchors": ["koladata/internal/uuid_object.cc: ComputeFingerprintFromFields, CreateUuidFromFields, CreateDictUuidFromKeysValuesAndFields, CreateSchemaUuidFromFields"]}
{"id": "C36", "title": "Uuids derived from main objects keep the allocation structure", "statement": "with_uuid derived ids keep offset and capacity of the main object, objects of one allocation go to one allocation, item-wise and slice-wise computation agree.", "quantifier": "all objects, salts and slices", "why_tests_cant": "all ids", "anchors": ["koladata/internal/uuid_object.cc: CreateUuidWithMainObject", "koladata/internal/object_id.{h,cc}: CreateUuidWithMainObject"]}
{"id": "C37", "title": "Every stream reader sees every written item once, in order, then the close status", "statement": "For any interleaving of writes, close and reads by any number of readers started at any time, each reader returns the written items in write order without loss or duplication, returns 'not ready' only when it has consumed everything written so far, and returns the close status exactly after the last item, whatever the chunk sizes.", "quantifier": "all interleavings, all chunk capacities, all numbers of readers", "why_tests_cant": "schedules", "anchors": ["koladata/functor/parallel/stream.cc: StreamImpl::InternalWrite, InternalClose, Reader::TryRead, Reader::Update"]}
{"id": "C38", "title": "Stream subscriptions are never lost", "statement": "A callback given to SubscribeOnce is run exactly once as soon as the reader has something to read or the stream is closed, and never before.", "quantifier": "all interleavings of subscribe, write, close", "why_tests_cant": "schedules", "anchors": ["koladata/functor/parallel/stream.cc: Reader::SubscribeOnce, InternalWrite, InternalClose"]}
{"id": "C39", "title": "stream.map output is independent of the execution schedule", "statement": "The output stream of stream.map is the functor applied to the items in input order up to, and closed with, the error at the smallest offset (functor error, wrong type or input stream error), or closed OK after the last item, for every order in which the executor runs the item tasks.", "quantifier": "all input streams, all functors, all schedules of item tasks", "why_tests_cant": "schedules", "anchors": ["koladata/functor/parallel/stream_map.cc: OrderedSink::PushItem, PushStatus, Accepts, ProcessItem, ReadItems"]}
{"id": "C40", "title": "stream.map_unordered outputs exactly the mapped multiset", "statement": "Without errors the output of stream.map_unordered is a permutation of the mapped items and is closed OK after all of them; with an error it is closed with one of the errors and contains only mapped items, each at most once.", "quantifier": "all schedules", "why_tests_cant": "schedules", "anchors": ["koladata/functor/parallel/stream_map.cc: UnorderedSink"]}
{"id": "C41", "title": "stream.chain concatenates and stream.interleave merges", "statement": "The output of a stream chain is the concatenation of the added streams in the order of adding up to and including the first error, whatever the readiness order; the output of interleave is a merge keeping the order of each input.", "quantifier": "all interleavings of writes to the inputs, of additions and of callbacks", "why_tests_cant": "schedules", "anchors": ["koladata/functor/parallel/stream_composition.cc: StreamChain::Scheduler, StreamInterleave::Scheduler"]}
{"id": "C42", "title": "stream.reduce / for / while give the sequential result", "statement": "The result of stream.reduce, stream.foreach and stream.while_ equals that of the sequential loop over the items and conditions, independent of how many items are ready at each resumption, including early stop, finalize and the first error.", "quantifier": "all input sequences, all ready-prefix schedules, all functors", "why_tests_cant": "schedules", "anchors": ["koladata/functor/parallel/stream_reduce.cc", "koladata/functor/parallel/stream_for.cc: StreamForHooks", "koladata/functor/parallel/stream_while.cc: StreamWhileHooks"]}
{"id": "C43", "title": "Functor argument binding follows the python rules", "statement": "Binding positional and keyword arguments to a functor signature succeeds exactly when python would bind them and assigns to every parameter the python-assigned value (positional, keyword, default, extra positionals tuple, extra keywords), and fails otherwise.", "quantifier": "all signatures and all argument lists", "why_tests_cant": "unbounded signatures and calls", "anchors": ["koladata/functor/signature_utils.cc: BindArguments", "koladata/signature.cc: Signature::Create"]}
{"id": "C44", "title": "A future delivers its value exactly once to every consumer", "statement": "Every consumer added before or after the value is set is called exactly once with the value (or with a cancelled error when the writer is dropped), setting twice is rejected.", "quantifier": "all interleavings of AddConsumer and SetValue", "why_tests_cant": "schedules", "anchors": ["koladata/functor/parallel/future.cc: Future::AddConsumer, SetValue, FutureWriter"]}
{"id": "C45", "title": "View operators work item by item", "statement": "On views of compatible shapes, & keeps exactly the items whose mask is present, | takes the left item where present and the right one elsewhere, comparisons give the present mask exactly where both items are present and the comparison holds, take returns the item at the index (None for missing or out of range) and all of them raise on incompatible shapes; & raises on mask items that are neither present nor missing masks.", "quantifier": "all views of all depths and shapes, all items", "why_tests_cant": "unbounded nesting and broadcasting shapes", "anchors": ["py/koladata/ext/view/view.py: View.__and__, __or__, __eq__, __lt__, take, _get_item_impl", "py/koladata/ext/view/clib.cc: MapImpl"]}
{"id": "C46", "title": "Every id shows the kind it was created with", "statement": "An id made by any creating call (allocation of objects, lists, dicts, schemas, copies of an allocation, uuids, no-follow schemas) answers the predicates for uuid, entity, list, dict, schema, explicit, implicit and no-follow schema as its creating call says, and the kinds exclude one another; the unspecified placeholder shows no kind.", "quantifier": "all creating calls with all arguments", "why_tests_cant": "all ids, sizes and fingerprints", "anchors": ["koladata/internal/object_id.h: ObjectId::IsUuid, IsEntity, IsList, IsDict, IsSchema, IsExplicitSchema, IsImplicitSchema, IsNoFollowSchema, CreateUuidObjectWithMetadata, NewAllocationIdLike", "koladata/internal/uuid_object.cc: CreateUuidObject"]}
{"id": "C47", "title": "Data items of different values or types feed different bytes to the stable hash", "statement": "The stable fingerprint of a data item is the hash of a sequence of byte strings; two items with the same sequence are the same value of the same type, except for quoted expressions whose serialisation happens to be the tag of another kind of item.", "quantifier": "all data items of all types, any hash function", "why_tests_cant": "unbounded domain of values; a collision is independent of the quality of the hash", "anchors": ["koladata/internal/stable_fingerprint.h: StableFingerprintHasher::Combine", "koladata/internal/data_item.cc: DataItem::StableFingerprint"]}
{"id": "C48", "title": "uuids with allocation size share one allocation of least capacity", "statement": "uuids_with_allocation_size(seed, size) gives size distinct uuid entities, all of one allocation, the i-th at place i, and the capacity of the allocation is the least power of two that holds them; different seeds or sizes give different hash inputs.", "quantifier": "all seeds and sizes up to 2^63", "why_tests_cant": "all sizes", "anchors": ["koladata/internal/uuid_object.cc: CreateUuidsWithAllocationSize", "koladata/internal/object_id.h: AllocateUuids"]}
{"id": "C49", "title": "Stored functor signatures read back", "statement": "A functor signature stored as a Koda object and read again has the same parameters: names, kinds, order and default values (unless a default value is the no-default marker itself); with detached defaults only the bags of the default values are lost; whatever is read successfully is a valid signature with the stored names, kinds and defaults, and a stored signature is rejected only for a parameter without a name, an unknown kind or an invalid parameter list.", "quantifier": "all signatures, all stored parameter lists", "why_tests_cant": "unbounded parameter lists and default values", "anchors": ["koladata/functor/signature_utils.cc: CppSignatureToKodaSignature", "koladata/signature_storage.cc: KodaSignatureToCppSignature"]}
{"id": "C50", "title": "Schema bags of schema nodes say exactly what the schema says about them", "statement": "get_schema_bag(names) contains exactly the names, metadata and subschemas that the schema has at the given nodes, subschemas only if their node is given too; so a path can be followed in the bag iff all nodes on it are given, with the same result as in the schema, and the bag of the nodes needed for a request suffices to follow every requested path (and every continuation, if descendants are requested). The bag of a parent and a child contains exactly the attributes that lead from one to the other and the name and metadata of the child; unknown names raise ValueError.", "quantifier": "every schema graph (cycles included), every set of node names, every request", "why_tests_cant": "arbitrary graphs, sets and paths of any length", "anchors": ["py/koladata/ext/storage/schema_helper.py: SchemaHelper.get_schema_bag, get_minimal_schema_bag_for_parent_child_relationship, _analyze_schema, _get_schema_bag", "py/koladata/ext/storage/stubs_and_minimal_bags_lib.py: schema_stub"]}
{"id": "C51", "title": "The schema nodes affected by an attribute update are those of the updated schema", "statement": "get_affected_schema_node_names(at, attr, value_schema) returns exactly the names that the node at the attribute and all nodes below it have in any schema in which the attribute of the entity has the schema of the value; it raises ValueError if the node is not an entity node of the schema or if the value has an OBJECT or SCHEMA subschema.", "quantifier": "every schema, entity node, attribute name and value schema (recursive ones included)", "why_tests_cant": "arbitrary graphs", "anchors": ["py/koladata/ext/storage/schema_helper.py: SchemaHelper.get_affected_schema_node_names, _analyze_schema"]}
{"id": "C52", "title": "Attributes read as they were written", "statement": "After an attribute of an object is set it reads as that value whatever the fallbacks say (also if it was set to missing), and every other attribute of every object reads as before; the same for setting many objects at once with values of any types, for assigning to all objects of an allocation (unless all values are missing) and for objects created with attributes. A fork reads like the original, a new bag knows nothing. Missing items are skipped, primitives raise, frozen bags raise.", "quantifier": "every history of bags (forks included), every object, attribute, value, slice (any types, sizes and mixtures of allocations) and list of fallback bags", "why_tests_cant": "values live in sparse and dense sources, read-only or mutable, typed or mixed, in any of the layers of a fork; which one is used depends on sizes and history", "anchors": ["koladata/internal/data_bag.cc: GetAttr, SetAttr, SetAttrForFullAllocation, CreateObjectsFromFields, PartiallyPersistentFork, GetOrCreateMutableSourceInCollection, CreateMutableDenseSource", "koladata/internal/dense_source.cc", "koladata/internal/sparse_source.cc", "koladata/data_slice.cc: SetAttr"]}
{"id": "C53", "title": "Reading an attribute of a slice is reading it of each item", "statement": "Reading an attribute of a slice of objects returns at each position what reading it of the object at that position returns, in a bag with any fallbacks; likewise for the reads that tell removed from unset values, and for the one that recognises whole allocations. Slices of primitives raise.", "quantifier": "every slice of objects (missing items, duplicates, any allocations), every list of bags", "why_tests_cant": "the batch read has separate code for one or many allocations, for sparse and dense sources, for the last fallback and for full allocations", "anchors": ["koladata/internal/data_bag.cc: GetAttr, GetAttrWithRemoved, GetMaybeFullAllocAttrWithRemoved, GetAttributeDataSources", "koladata/internal/dense_source.cc: Get", "koladata/internal/sparse_source.cc: Get", "koladata/internal/slice_builder.cc"]}
{"id": "C54", "title": "Merging bags merges every attribute by the conflict policy", "statement": "After merging a bag into another, an attribute of an object known to one of them has its value, and one known to both has the value of the other bag if conflicts are overwritten, of this bag if they are kept, and a value equal to both if conflicts raise. The merge raises only if conflicts raise and there is one. (Exceptions, shown by witnesses: an array of nothing but removed values may be ignored, and an array larger than its allocation may be read beyond its end.)", "quantifier": "every pair of bags, forks of common ancestors included, every policy", "why_tests_cant": "every combination of sparse and dense storage in any layers of both bags is merged by its own code", "anchors": ["koladata/internal/data_bag.cc: MergeInplace, MergeBigAllocInplace, MergeBigAllocImpl, MergeSmallAllocInplace, IsSubsetOf", "koladata/internal/dense_source.cc: Merge, MergeImpl"]}
{"id": "C55", "title": "An overwriting update has the effect of the merge", "statement": "The update made from this bag and another one, read in front of this bag, gives the attributes that the other bag in front of this bag gives; so merging it has the effect of merging the other bag.", "quantifier": "every pair of bags, forks of common ancestors included", "why_tests_cant": "as for merging; the update leaves out what the bags share", "anchors": ["koladata/internal/data_bag.cc: CreateOverwritingMergeUpdate, AddBigAllocOverwritingUpdate, AddSmallAllocOverwritingUpdate"]}
{"id": "C56", "title": "Bags do not see modifications of other bags", "statement": "A modification of a bag changes what is read from this bag and from no other one, no matter which bags were forked from, frozen from, or put in front of which. What is read from an immutable bag never changes, it cannot be modified and never becomes mutable; a mutable bag stays mutable until it is made immutable. Setting an attribute of an object in a mutable bag succeeds, the value is read back, and everything else in all bags reads as before.", "quantifier": "every history of creations, forks, freezes, fallbacks, modifications (also failing ones), merges and updates; every bag, object and attribute", "why_tests_cant": "forks share their data lazily in chains of parents of any length; a leak shows only for certain orders of forks and writes", "anchors": ["koladata/data_bag.cc: Fork, FallbackFreeFork, Freeze, GetMutableImpl", "koladata/data_bag.h: DataBag, UnsafeMakeImmutable"]}
{"id": "C57", "title": "Forked, frozen and layered bags read like their sources", "statement": "A new bag is empty. A fork reads like its source when it is made; a frozen bag too, and it is the same bag if it was immutable. A bag with fallbacks reads like the first of them that knows something about the attribute, also when fallbacks have fallbacks and bags are reached several times. Merging the fallbacks makes a mutable bag without fallbacks that reads the same (except, shown by a witness, for an attribute removed from all objects of an allocation). Forking a bag with fallbacks and mutable fallbacks are errors.", "quantifier": "every history; every bag, object and attribute; any graph of fallbacks", "why_tests_cant": "graphs of fallbacks are unbounded, and are flattened by a traversal that skips what it has seen", "anchors": ["koladata/data_bag.cc: Fork, Freeze, ImmutableEmptyWithFallbacks, VisitFallbacks, MergeFallbacks, MergeFallbacksToForkedImpl", "koladata/data_bag.h: FlattenFallbackFinder"]}
{"id": "C58", "title": "Merging a bag with fallbacks merges what is read from it", "statement": "Merging a bag into a mutable one gives every attribute of every object the value the flags overwrite and allow_data_conflicts call for, given what was read from both bags with their fallbacks; without conflicts allowed it fails only if there is a conflict. An immutable bag is left as it is and an error returned. An overwriting update made from another bag is a new immutable bag which in front of this bag reads like the other bag in front of this bag.", "quantifier": "every history; every pair of bags (also a bag and its own fork), object and attribute", "why_tests_cant": "as for C54, with fallbacks of any depth merged first", "anchors": ["koladata/data_bag.cc: MergeInplace, CreateOverwritingMergeUpdate, MergeFallbacksToForkedImpl"]}
{"id": "C59", "title": "kd.json_stream operators do not depend on how the input is cut", "statement": "What an operator of kd.json_stream writes depends only on the text that its input stream delivers, not on how that text is cut into items nor on missing items between them, for valid and for invalid JSON; no empty item is written; what has been written before the end of the input is a prefix of what is written for every continuation of the input.", "quantifier": "every operator (prettify, head, select_nonempty_objects, select_nonempty_arrays, select_nonnull, get_object_key_values, get_object_key_value, implode_array, explode_array, get_array_nth_value, unquote, quote, chunk_values) with every argument, every byte string, every way to cut it", "why_tests_cant": "every byte string can be cut in exponentially many ways, in the middle of escapes and literals", "anchors": ["koladata/internal/op_utils/json_stream.cc: Process of all processors", "koladata/operators/json_stream.cc: StreamProcessorHooks, CompositeStreamProcessor"]}
{"id": "C60", "title": "kd.json_stream operators pass errors on", "statement": "If the input stream ends with an error, the output stream is closed with it, without the output that belongs to the end of the input, unless the operator is head and was done before; if an item is not a string, the output is closed with an error, and what was written before stays.", "quantifier": "every operator, every delivered text, every position of the error", "why_tests_cant": "errors at every position of every text", "anchors": ["koladata/operators/json_stream.cc: StreamProcessorHooks::Resume"]}
{"id": "C61", "title": "chunk_values and prettify keep the values", "statement": "For every sequence of JSON values, chunk_values writes one item per value, its text without insignificant whitespace followed by a newline; the values are separated by whitespace, which may be left out after strings, arrays and objects and before brackets. For values separated by whitespace, prettify writes the texts with line breaks and indents as json.dumps does, separated by newlines (after a newline if the input begins with whitespace). Both outputs are texts of the same values (prettify: if the indent is whitespace).", "quantifier": "all JSON texts of any nesting and size, all indents", "why_tests_cant": "unbounded nesting; strings with brackets, escapes and quotes", "anchors": ["koladata/internal/op_utils/json_stream.cc: JsonCompactifyStreamProcessor, JsonPrettifyStreamProcessor, JsonChunkValuesStreamProcessor"]}
{"id": "C62", "title": "head and the selecting operators", "statement": "head(n) writes the first n values in compact form, one per line, and closes its output once it has seen them and the whitespace after them, whatever follows in the stream; select_nonempty_objects, select_nonempty_arrays and select_nonnull keep exactly the values of their kind, in order.", "quantifier": "all JSON texts, all n, all continuations of the stream", "why_tests_cant": "unbounded inputs; what follows the n-th value includes errors", "anchors": ["koladata/internal/op_utils/json_stream.cc: JsonHeadStreamProcessor, JsonSelectNonemptyObjectsStreamProcessor, JsonSelectNonemptyArraysStreamProcessor, JsonSelectNonnullStreamProcessor"]}
{"id": "C63", "title": "Arrays of JSON values", "statement": "implode_array writes the array of all values; explode_array writes the elements of all arrays, one per line, and nothing for other values; exploding what was imploded gives the values back. get_array_nth_value(n) with n >= 0 writes for each value its n-th element, or null if there is none, provided that every value that is neither array nor object is followed by the end or by an array with an n-th element; for negative n arrays yield nothing.", "quantifier": "all JSON texts, all n", "why_tests_cant": "unbounded nesting and lengths", "anchors": ["koladata/internal/op_utils/json_stream.cc: JsonImplodeArrayStreamProcessor, JsonExplodeArrayStreamProcessor, JsonGetArrayNthValueStreamProcessor"]}
{"id": "C64", "title": "quote and unquote", "statement": "quote writes one JSON string whose content is the input; unquote writes the contents of all strings (keys included) in order; unquoting what was quoted gives the input back, for every byte string.", "quantifier": "all byte strings; all JSON texts without halves of surrogate pairs", "why_tests_cant": "every content, every escape", "anchors": ["koladata/internal/op_utils/json_stream.cc: JsonQuoteStreamProcessor, JsonUnquoteStreamProcessor"]}
{"id": "C65", "title": "get_object_key_values and get_object_key_value", "statement": "get_object_key_values(key) writes for each value of the input the array of the values of all members of it whose key, after unescaping, is the given one, in order ([] for values that are not objects); get_object_key_value the first of them, or null. This holds if no object in the input is empty, or if no value of the input and no element of an array is a string.", "quantifier": "all JSON texts, all keys", "why_tests_cant": "unbounded nesting; equal keys in nested objects, escaped keys, keys in strings", "anchors": ["koladata/internal/op_utils/json_stream.cc: JsonExtractValuesStreamProcessor", "koladata/operators/json_stream.cc: get_object_key_values, get_object_key_value"]}
{"id": "C66", "title": "salvage always writes JSON", "statement": "For every input text, valid UTF-8 or not, and all options, kd.json_stream.salvage writes well-formed UTF-8 that is a sequence of JSON values on lines of their own. Exceptions: NaN and infinities if allow_nan; numbers as keys only if '-' or '+' comes directly before a digit or '.', raw control characters only if a backslash comes directly before one, an unfinished member only if two backticks follow each other in the input. With ensure_ascii all of the output is ASCII, unless a backslash comes directly before a character that is not.", "quantifier": "all byte strings, all ways to cut them into items, all options", "why_tests_cant": "every malformed input", "anchors": ["koladata/internal/op_utils/json_stream.cc: JsonSalvageStreamProcessor", "koladata/operators/json_stream.cc: JsonStreamSalvageStream"]}
{"id": "C67", "title": "salvage understands texts like JSON", "statement": "For every text in the language that salvage is for (JSON with any whitespace, commas and colons between values, comments, strings in single, double, triple quotes or backticks with the escapes of JSON, JavaScript and Python, words without quotes as keys and values, keywords in any case, numbers with signs, separators, suffixes, exponents or in base 16, 8 and 2, arrays in brackets or parentheses, any closing bracket, members without value or key) the output is JSON of the values that the text means, each on a line of its own.", "quantifier": "all texts of the language of any nesting and size, all options, all ways to cut the text into chunks", "why_tests_cant": "unbounded nesting, and the combinations of quotes, escapes, separators and what follows them", "anchors": ["koladata/internal/op_utils/json_stream.cc: JsonSalvageStreamProcessor", "koladata/operators/json_stream.cc: JsonStreamSalvageStream"]}
{"id": "C68", "title": "salvage keeps JSON", "statement": "For every sequence of JSON values separated by whitespace that are nested at most max_depth deep and whose strings have no half of a surrogate pair, salvage writes JSON of the same values, each on a line of its own: the same structure, the same order of members, strings of the same content, and numbers with the same digits (the exponent with a small e).", "quantifier": "all JSON texts of any nesting and size, all options, all ways to cut the text into chunks", "why_tests_cant": "unbounded nesting; strings with quotes, escapes and brackets", "anchors": ["koladata/internal/op_utils/json_stream.cc: JsonSalvageStreamProcessor", "koladata/operators/json_stream.cc: JsonStreamSalvageStream"]}
{"id": "C69", "title": "salvage closes what is open at the end", "statement": "For every text like JSON (see C67) that is cut off at a point where strings, arrays, objects or a comment are open, salvage writes the JSON of the values read so far with everything closed: an unterminated string ends there (an unfinished escape is dropped, or gets the digits that are there), a key without a value gets null, and containers contain exactly what came before the cut.", "quantifier": "all such texts of any nesting and size, all options, all ways to cut the text into chunks", "why_tests_cant": "unbounded nesting of open containers, and all combinations of what is open at the end", "anchors": ["koladata/internal/op_utils/json_stream.cc: JsonSalvageStreamProcessor::ProcessInputEndInternal", "koladata/operators/json_stream.cc: JsonStreamSalvageStream"]}
{"id": "C70", "title": "salvage replaces what is not UTF-8", "statement": "For every sequence of bytes, salvage writes what it writes for the text that the bytes stand for: bytes that begin no character, sequences that are interrupted and sequences that encode no character each become one U+FFFD, everything else is kept, and the beginning of a character at the end of the input is dropped; this holds wherever the input is cut, also inside of characters.", "quantifier": "all byte sequences, all options, all ways to cut the input into chunks", "why_tests_cant": "all combinations of malformed sequences and positions of the cuts", "anchors": ["koladata/internal/op_utils/json_stream.cc: JsonSalvageStreamProcessor::ProcessInputByte, Utf8MultibyteSequenceLength"]}
{"id": "C71", "title": "recursive operators visit everything once, children first", "statement": "The walk that the recursive operators share (deep_uuid, deep_clone, extract-like operators) visits exactly the items, lists, dicts, objects and schemas that can be reached from the given slice through the references the operator wants to follow, each item with its schema once, and what an item refers to before the item itself unless it leads back to the item. It ends for every data with finitely many reachable items, cyclic or not, and on well-typed data it fails only when the operator itself fails on an item.", "quantifier": "all bags, all slices, all schemas, all operators whose answers do not depend on what they have seen, any depth, sharing and cycles", "why_tests_cant": "unbounded graphs with arbitrary sharing and cycles", "anchors": ["koladata/internal/op_utils/traverse_helper.h: TraverseHelper", "koladata/internal/op_utils/traverser.h: Traverser"]}
{"id": "C72", "title": "deep_uuid depends on content only", "statement": "kd.deep_uuid returns for every item an id that is a function of the seed, the schema kind and the content of the item: primitives count as they are, ITEMIDs as ids, lists by their items in order, dicts by their items in any order if the contents of the keys have different fingerprints, entities and objects by the names and values of their attributes in any order, schemas by their attributes, references of an item to itself by a placeholder. Two items of the same content in the same or in different bags, with different ids, get the same result. A seed that is not a string is an error.", "quantifier": "all hash functions, seeds, bags, slices and schemas in which each id is used with one schema, and no attribute of an item on a cycle has by accident the id of the item as its value", "why_tests_cant": "all pairs of bags with the same content, any depth, sharing and self references", "anchors": ["koladata/internal/op_utils/deep_uuid.cc: DeepUuidVisitor, DeepUuidOp", "koladata/internal/uuid_object.cc"]}
{"id": "C73", "title": "deep_uuid succeeds exactly without longer cycles", "statement": "kd.deep_uuid succeeds for all well-typed data with finitely many reachable items in which the only cycles are attributes that refer to their own item; it never succeeds when the value of an item would be needed for itself (a list or dict that contains itself, items that refer to each other). Exceptions of C72 are real: an ITEMID attribute equal to the own id counts as a self reference, and the order of the items of a dict counts when keys have equal content.", "quantifier": "all hash functions, seeds, bags, slices and schemas", "why_tests_cant": "arbitrary cyclic graphs of any length", "anchors": ["koladata/internal/op_utils/deep_uuid.cc: DeepUuidVisitor", "koladata/internal/op_utils/traverser.h: Traverser"]}
{"id": "C74", "title": "assert_equivalent finds exactly the differences", "statement": "kd.testing.assert_equivalent (deep equivalence) compares two slices of the same size item by item with everything reachable from them. What it reports are exactly the differences that matter between the items reached on the same paths: it passes exactly when the items at each position are equivalent (same values, where numbers of different width are compared by value and all NaNs are equal, same kind of container, the same positions, keys and attributes, and equivalent parts below; with the options: the same ids, the same schemas, or only the attributes of the expected side). It ends on cyclic data, a slice is equivalent to itself, equivalence is transitive, and symmetric when schemas are compared. It fails only if the sizes differ or some reached item cannot be read.", "quantifier": "all pairs of bags, slices, schemas and options", "why_tests_cant": "arbitrary pairs of cyclic graphs; the merge of sorted keys must not miss or invent a difference for any set of keys", "anchors": ["koladata/internal/op_utils/deep_comparator.h: DeepComparator", "koladata/internal/op_utils/deep_equivalent.cc: EquivalentComparator, DeepEquivalentOp"]}
{"id": "C75", "title": "Casting to an entity schema checks all nested schemas", "statement": "Before data is cast to another entity schema, the two schemas are compared: the check passes exactly if they are equal, or one of them is a dtype and the cast is possible, or every attribute reached on the same path in both can be cast and no attribute is added or removed unless that is allowed. It does not fail and it ends for recursive schemas. Which dtypes can be cast to which is a fixed table; OBJECT cannot be cast to OBJECT inside of an entity schema.", "quantifier": "all bags, schemas and options", "why_tests_cant": "arbitrary recursive schemas", "anchors": ["koladata/internal/op_utils/deep_schema_compatible.cc: SchemaCompatibleComparator", "koladata/casting.cc: IsProbablyCastableTo, AssertDeepSchemaCompatible"]}
{"id": "C76", "title": "select keeps exactly what the filter says", "statement": "kd.slices.select(ds, fltr) keeps of each group exactly those parts whose filter item is present, in their order and with everything below them; with expand_filter it keeps or drops single items by the filter item in their place, and the groups stay. The rank does not change. A filter that is not of schema MASK or OBJECT, is of a higher rank, is an item (unless it is expanded), has a shape that ds does not begin with, or has items that are not masks is an error.", "quantifier": "all slices of any jagged shape, filters and options", "why_tests_cant": "arbitrary rank, group sizes (also empty groups) and filters", "anchors": ["koladata/operators/slices.cc: Select", "koladata/internal/op_utils/select.cc: SelectOp"]}
{"id": "C77", "title": "inverse_select puts the items back", "statement": "kd.slices.inverse_select(ds, fltr) puts the items of each group in the places where the filter is present, in their order, and leaves the others missing. select with the same filter undoes it, and after select it returns the slice with the items missing where the filter is. Shapes that do not match the counts of the filter are an error.", "quantifier": "all slices and filters", "why_tests_cant": "a round trip over all jagged shapes and filters", "anchors": ["koladata/operators/slices.cc: InverseSelect", "koladata/internal/op_utils/inverse_select.h: InverseSelectOp"]}
{"id": "C78", "title": "Broadcasting and align", "statement": "A slice is broadcast to a shape that begins with its own shape by putting each item in the place of all the items below its place; other shapes are an error. align returns all its arguments in the shape of the deepest of them if each two of their shapes begin with each other, and is an error otherwise.", "quantifier": "all slices and shapes, any number of arguments", "why_tests_cant": "arbitrary jagged shapes and numbers of arguments", "anchors": ["koladata/data_slice.cc: BroadcastToShape", "koladata/shape_utils.cc: GetCommonShape, Align", "koladata/operators/slices.cc: AlignOperator"]}
{"id": "C79", "title": "reverse", "statement": "kd.slices.reverse reverses the groups of the last dimension, missing items included, and keeps the shape; twice it is the identity; an item is left as it is.", "quantifier": "all slices", "why_tests_cant": "arbitrary jagged shapes; the code walks the present items of each type and finds their group by moving a cursor", "anchors": ["koladata/operators/slices.cc: Reverse", "koladata/internal/op_utils/reverse.cc: ReverseOp"]}
{"id": "C80", "title": "unique", "statement": "kd.slices.unique leaves of each group of the last dimension the present items that are not the same as an earlier one of the group, in the order of first appearance, where all NaNs are the same; with sort in increasing order and NaN last. Items of the same value in different groups do not affect each other. Sorting items that have no order is an error. (For slices of mixed types NaNs are not the same.)", "quantifier": "all slices", "why_tests_cant": "one map is shared by all groups and must never leak a value from one group to another", "anchors": ["koladata/operators/slices.cc: Unique"]}
{"id": "C81", "title": "subslice and take", "statement": "x.S[...] (kd.slices.subslice) chooses with its arguments from the last dimensions: an index takes the part with that index of each group (from the end if it is negative, missing if there is none), a range takes the parts between its bounds as in Python, missing indices and bounds take nothing; indices and bounds are aligned with the groups that were chosen. An ellipsis stands for the whole of the dimensions without an argument. take is subslice with one index, for slices of indices compatible with all but the last dimension. Too many arguments, two ellipses and arguments of other shapes are errors.", "quantifier": "all slices, all sequences of arguments with slices as indices and bounds", "why_tests_cant": "arbitrary rank, jagged shapes, and combinations of arguments of different ranks", "anchors": ["koladata/subslice_utils.cc: Subslice, SubsliceChildIndicesForSingle, SubsliceChildIndicesForRange", "koladata/operators/slices.cc: SubsliceOperator, ExtractSlicingArgs, Take"]}
{"id": "C82", "title": "group_by_indices", "statement": "kd.group_by_indices makes of each row of the last dimension the list of its groups of positions: two positions are in one group exactly if the items of all the keys are equal at them, a position where some key is missing is in no group, no group is empty, the positions of a group are increasing; the groups are in the order of their first positions, or with sort in the lexicographic order of their keys (if no key is NaN). The result has one dimension more. NaNs are not equal to each other. An item, keys of different shapes and sorting of keys that have no order are errors.", "quantifier": "all slices, any number of keys", "why_tests_cant": "any number of keys refines the groups step by step, with numbers that are shared by all rows and then counted and sorted in place", "anchors": ["koladata/operators/slices.cc: GroupByIndices, GroupByIndicesProcessor"]}
{"id": "C83", "title": "async_eval gives the result of the operator for the values of the futures", "statement": "Futures are set from outside or are results of async_eval of operators on values and other futures. Whatever the order in which consumers are added, futures are set, consumers are called and tasks are run, no future is set twice; the value of a result is that of the operator for the values of all its inputs, or the error of one of its inputs, or 'orphaned' if the executor dropped the task; values that are set stay; results that are not errors do not depend on the schedule; runs are finite, and when nothing is left to do exactly those results are set that have an input with an error or all inputs set, so all of them if all sources are set.", "quantifier": "all programs of async_eval calls (any number of inputs, the same future several times), all interleavings of threads and executor", "why_tests_cant": "the result depends on races between adding consumers, setting values, reporting errors and scheduling", "anchors": ["koladata/functor/parallel/async_eval.cc: AsyncCountdown, AsyncEvalWithCompilationCache", "koladata/functor/parallel/future.cc: Future, FutureWriter"]}
{"id": "C84", "title": "deep_clone returns a copy of everything that can be reached, under new ids", "statement": "kd.deep_clone returns a slice and a bag that are a copy of the given slice: there is a map from the ids of the items and implicit schemas that can be reached to new ids, the same for all places where an id is used, so that shared items and cycles stay shared; different ids get different new ids, ids of one allocation stay together with their offsets, the kind of an id is kept and a uuid becomes an ordinary id. The items, the lists, the dicts and the attributes in the schemas are copied with the ids replaced, ITEMIDs and explicit schemas stay as they are; the implicit schema of the clone of an object is the one that belongs to the clone; nothing else is in the new bag. The explicit schemas that are carried over are exactly those that are used. It ends for data with cycles, and it does not fail for well-typed data without metadata.", "quantifier": "all bags, slices, schemas, cycles and sharing, all hash functions without collisions on the ids at hand", "why_tests_cant": "the copy must be right for every shape of graph, with sharing and cycles, and for every order of the walk", "anchors": ["koladata/internal/op_utils/deep_clone.cc: DeepCloneVisitor, DeepCloneOp", "koladata/internal/op_utils/traverser.h: Traverser"]}
{"id": "C85", "title": "Calls of functors with variables", "statement": "A call of a functor evaluates the expression in `returns` for the bound arguments, where every variable V.x stands for the value of the variable x of the functor: the value of its expression, evaluated in the same way, or the item itself, attached to the bag of the functor. The order of evaluation puts every variable after the variables it uses and contains exactly the variables that `returns` needs, each once. The call fails exactly if the arguments do not bind, an expression uses an input that is not a parameter, a variable is missing, variables depend on each other in a cycle, or an operator fails, and the error says which of these.", "quantifier": "all functors (any number of variables, any nesting of expressions), all arguments, all operators", "why_tests_cant": "the walk over variables must be right for every dependency graph, with sharing, cycles and unused variables", "anchors": ["koladata/functor/auto_variables.cc: GetVariableEvaluationOrder, InlineAllVariables", "koladata/functor/call.cc: CallFunctorWithCompilationCache", "koladata/expr/expr_eval.cc"]}
{"id": "C86", "title": "Creation of functors", "statement": "Creating a functor from `returns`, a signature and variables succeeds exactly if `returns` is an item that is present, the signature and each variable is an item, the signature is valid, no variable that the result needs depends on itself, and all of them are given; else the error says what is wrong. The attributes of the functor are then exactly those given and the signature, which is the given one or the one made of the inputs of all expressions in sorted order. What is created is a functor, and a call of it does what a call of a functor with these parts does.", "quantifier": "all combinations of arguments", "why_tests_cant": "any number of variables with any expressions; the accepted and rejected arguments are infinitely many", "anchors": ["koladata/functor/functor.cc: CreateFunctor, CreateFunctorImpl, IsFunctor"]}
{"id": "C87", "title": "The cache of processed functors cannot be seen", "statement": "The result of a call of a functor is that of a call without any cache, of the functor visible in its bag, in every history of creating, writing, forking, freezing and layering bags and of calls that overlap, as long as nobody writes to a bag while a functor in it is called. What is visible in a bag that is not mutable never changes; a write to a bag changes nothing in other bags.", "quantifier": "all histories, all interleavings of calls", "why_tests_cant": "a stale entry shows only for particular histories of writes, freezes and overlapping calls", "anchors": ["koladata/data_bag.h: GetCachedMetadataOrNull, SetCachedMetadata, UnsafeMakeImmutable", "koladata/functor/call.cc: CallFunctorWithCompilationCache"]}
{"id": "C88", "title": "while_ runs its body until the condition is missing", "statement": "kd.functor.while_ (and WhileWithCompilationCache) returns a result exactly if, after some number of iterations in each of which the condition was a present MASK item and the body returned a namedtuple whose fields are state variables of the same types, the condition is a missing MASK item. Condition and body always get the latest values of all variables that do not yield. The result is the latest value of each variable, and for the variables that yield the initial value and all values that the body returned, in order; `returns` gives the last value of `returns`, `yields` the items of all its values one after the other. Every error says what is wrong in the iteration where it happens. If there is never a missing condition or an error, the loop does not end, and only then.", "quantifier": "all functors as condition and body, all variables, any number of iterations", "why_tests_cant": "any number of iterations, with any subsets of the variables updated in each, and loops that do not end", "anchors": ["koladata/functor/while.cc: WhileWithCompilationCache", "koladata/functor/while_operator.cc: WhileOperator", "py/koladata/operators/functor.py: while_"]}
{"id": "C89", "title": "A trampoline program does what the recursive program does", "statement": "TrampolineExecutor::Run calls the root callback and then all callbacks that were enqueued in the order of the recursive program: a callback enqueued by another runs after it and after all that was enqueued before it by the same callback, with all that those enqueue themselves. Every callback that is enqueued is called exactly once, unless a callback fails; then nothing more is called and the status is the error. It ends exactly if the recursive program ends.", "quantifier": "all programs of callbacks, all depths and numbers of enqueued callbacks, errors at any point", "why_tests_cant": "the order has to be right for every nesting of callbacks that enqueue callbacks", "anchors": ["koladata/internal/op_utils/trampoline_executor.h: TrampolineExecutor", "koladata/internal/op_utils/trampoline_executor.cc: Run, FlushBuffer, Enqueue"]}
{"id": "C90", "title": "kd.map calls the functors at each position, once and in order", "statement": "kd.functor.map aligns the functors and all arguments to the deepest shape. At each position, in order, it calls the functor there with the items of the positional arguments and then the keyword arguments there, passing the names of the latter; it does not call it, and the result is missing there, if the functor is missing or, without include_missing, if an argument is. The result has the aligned shape; its items are what the calls returned, in their common schema; a rank 0 result is what the call returned, with its own schema. The first call that fails or that does not return an item is the error, and nothing is called after it; slices that cannot be aligned are an error before any call. map_reduce_update makes the same calls; if all the bags returned are one bag this is the result, if there are none it is null, and otherwise it is a new bag into which each bag was merged exactly once, in the order of the positions, or the first merge conflict.", "quantifier": "all slices of functors and arguments with any jagged shapes and missing items, all functors, with and without include_missing", "why_tests_cant": "depends on every combination of shapes, missing items and failures of calls", "anchors": ["koladata/functor/map.cc: CallFunctorOnItem, ForEachAlignedItem, MapFunctorWithCompilationCache, MapReduceUpdateFunctorWithCompilationCache", "koladata/functor/map_operator.cc: MapOperator, MapReduceUpdateOperator", "koladata/operators/slices.cc: ConcatOrStackImpl", "koladata/casting.cc: AlignSchemas", "koladata/adoption_utils.cc: AdoptionQueue::GetCommonOrMergedDb, AdoptInto"]}
{"id": "C91", "title": "Saved slices load with the same items", "statement": "Serializing the items of a slice and deserializing the result gives the same items at the same positions, with missing and removed ones told apart, for items of any mixture of types, in whatever order the arrays of the types are visited, and however small the block size is that makes the values spill over into further parts. A part is never larger than the block size and one item; all parts but the last exceed the block size, and no further part is empty. Deserialization succeeds exactly for the messages that stand for items: the type bytes are those of the items, the quoted expressions come first among the inputs and the further parts last, the values of each type that occurs are those of the items, in order and with none left over, however they are cut into parts (ids as differences modulo 2^64 from the id before), the main part has no values of types that do not occur, and dtypes are valid; for all other messages it is an error and never a slice with other items.", "quantifier": "all slices, orders of types, block sizes, and all messages with any number of parts", "why_tests_cant": "depends on every interleaving of types, on where blocks are cut, and on all malformed messages; with the default block size of gigabytes tests hardly reach a second part", "anchors": ["koladata/s11n/encoder.cc: EncodeDataSliceImpl, AddSliceElementToProto", "koladata/s11n/decoder.cc: DecodeDataSliceCompactProto", "koladata/s11n/codec.proto: DataSliceCompactProto", "koladata/internal/slice_builder.h: InsertIfNotSet"]}
{"id": "C92", "title": "Saved bags load with the same attributes", "statement": "Serializing the attributes of a bag and deserializing them gives a bag in which every attribute of every object is what it was: the same value, removed, or not set, for bags with any number of parent layers and for attributes stored in single entries or in arrays; reading an attribute from the loaded bag gives what reading it from the saved bag gives, also through fallbacks. The exception: an attribute stored in an array in which no object of the allocation has a value is not set in the loaded bag, so removals are lost and values of fallbacks show through again. The order in which attributes, allocations and objects are written does not matter. Loading any data checks that every chunk refers to a value that is there, and that an array begins at the first object of an allocation and fits into it; if it fails, the error names a check that a chunk fails.", "quantifier": "all bags with any layers, sources and allocations, all orders of writing, all objects and attributes; all saved data for the checks", "why_tests_cant": "the result depends on every combination of sparse and dense sources over all layers, array sizes and removed values", "anchors": ["koladata/internal/data_bag.cc: CreateIndex, ExtractAttrContent, ExtractSmallAllocAttrContent, GetAttributeFromSources, SetAttrFullAlloc", "koladata/s11n/encoder.cc: EncodeDataBag, EncodeAttribute", "koladata/s11n/decoder.cc: DecodeAttrProto, DecodeDataBagValue"]}
{"id": "C93", "title": "The signature check of functor substitution", "statement": "assert_signatures_compatible(old, new), which kd.functor.sub and sub_by_name use, raises only if new is not a functor or there is a call (the one named in the error) that works for old and does not work for new. It passes exactly if new takes two calls: the one with the fewest arguments, by name where possible, and the one with everything passed by position where possible, ten arguments for *args and one odd name for **kwargs. If it passes, and the signatures are aligned (*args and **kwargs stay, names that can be passed stay known, parameters with a common name have the same kind and place, and **kwargs of old does not meet new names at its positions), then every call that works for old works for new. The documentation claims this without the condition, which is false: each part of the condition is needed.", "quantifier": "all pairs of valid signatures, all numbers of positional arguments and all sets of keywords", "why_tests_cant": "compatibility speaks about all calls; the check tries two of them", "anchors": ["py/koladata/functor/substitute.py: assert_signatures_compatible", "koladata/functor/signature_utils.cc: BindArguments", "py/koladata/types/signature_utils.py: to_inspect_signature"]}
{"id": "C94", "title": "Visiting functors and substitution in functors", "statement": "kd.functor.visit_functors(f, callback) calls the callback exactly once for f and for every functor below it (functors that are values of variables needed for the result, at any depth, shared or not), after the calls for its subfunctors and with their results, and returns the result for f; for a callback without state that is the value computed without sharing. If it raises, then f is not a functor, a functor is below itself, or the order of evaluation or the callback fails for one of these functors; a functor below itself is always found. kd.functor.sub and sub_by_name return f in which every attribute with a replacement is replaced in all these functors, subfunctors without a replacement are treated in the same way, and nothing else changes. They raise only for the reasons above, if a functor would be replaced by one whose signature is rejected, and sub_by_name if attributes with the name of a replacement differ; if they return, neither is the case.", "quantifier": "all finite graphs of functors with sharing and cycles, all callbacks with state and errors, all replacements", "why_tests_cant": "the traversal shares results and must be right for every graph", "anchors": ["py/koladata/functor/visitor/visitor.py: _FunctorVisitor, visit_functors", "py/koladata/functor/substitute.py: sub, sub_by_name"]}
{"id": "C95", "title": "New names of attributes are identifiers, distinct and consistent", "statement": "kd_ext.contrib.sanitize_names always ends, and for each schema there is one renaming of its attributes, used for the schema and for all its items: names that are ASCII identifiers stay, every other name x becomes san_x with underscores for other characters, followed by nothing or by _0, _1, ...: the first choice that is not the new name of another attribute. No two attributes of a schema get the same new name, every new name is an identifier, schemas do not influence each other, and every item gets exactly the attributes it had. Which of several colliding names gets a suffix depends on the first visited item if attributes are missing.", "quantifier": "all sequences of visits of items and schemas, all sets of attribute names (any bytes), all patterns of missing attributes", "why_tests_cant": "collisions between names, suffixes and existing names have no bound", "anchors": ["koladata/contrib/sanitize_names.cc: IsValid, SanitizeName, SanitizeNamesVisitor", "py/koladata/ext/contrib/operators.py: sanitize_names"]}
{"id": "C96", "title": "Flattening of cyclic references gives a forest", "statement": "kd_ext.contrib.flatten_cyclic_references always ends for finite data, cyclic or not, and succeeds if and only if every reachable item can be read; otherwise it fails with the error of a reachable item. The result is a forest: every copy is referred to exactly once, from the result or from one other copy, and has the values of its item in order. Following keys from the result leads to the same leaves as in the old data, and to copies of the same items, until an item would be there for the (max_recursion_depth + 2)-nd time on the way, where the value is missing; no item is more than max_recursion_depth + 1 times on a way, and every reachable item is copied.", "quantifier": "all finite graphs of items with sharing and cycles, all depths that are not negative, all slices, all errors of reading", "why_tests_cant": "the loop keeps its path on a stack with counters and must be right for every graph; the size is exponential", "anchors": ["koladata/contrib/flatten_cyclic_references.cc: FlattenCyclicReferencesOp", "py/koladata/ext/contrib/operators.py: flatten_cyclic_references"]}
{"id": "C97", "title": "Builders of slices keep the first value of each element", "statement": "Whatever values of whatever types are inserted in a slice builder, one by one, in batches with masks, or masked out, and in whatever order: no call fails, an element is set from the first call that is about it (also with a missing value) and later calls do not change it, the builder is final exactly when all elements are set. The slice has at each element the first value that was inserted there and is missing elsewhere; elements that were never set stay apart from elements that were set to missing; there is exactly one array for each type with a value that counts (types of which no value counts leave no trace), and the slice has a type if and only if this is the only one.", "quantifier": "all sizes, all sequences of insertions, batches and masks, all types and values", "why_tests_cant": "the storage moves between a first slot, a map, borrowed buffers and builders depending on the history of types, and histories have no bound", "anchors": ["koladata/internal/slice_builder.h: SliceBuilder", "koladata/internal/slice_builder.cc: Build, RemoveEmptyTypes, ChangeCurrentType, UnsetCurrentType", "koladata/internal/data_slice.cc: DataSliceImpl::operator[]"]}
{"id": "C98", "title": "Bitmaps of the types of elements are exact", "statement": "For arrays of every size, the bitmap of a type has for each element whether it is of this type, the inverted bitmap whether it is not, and those of set and of not removed elements whether they are; bitmaps have one word per 32 elements and no bits after the last element. A type that is already there is not added again, adding types does not change the types of elements, and an element that gets the index of a type is of this type; unset and removed elements have none.", "quantifier": "all sizes, all contents of the buffer, all types, all elements", "why_tests_cant": "words, halves of words and the rest are handled by different code, for every size and content", "anchors": ["koladata/internal/types_buffer.cc: GetEqualityMask16, ToBitmapImpl", "koladata/internal/types_buffer.h: TypesBuffer"]}
{"id": "C99", "title": "coalesce prefers the left slice, disjoint_coalesce never loses a value", "statement": "coalesce of two slices of the same size, with whatever types on both sides, always succeeds and has at each element the value of the left slice, or if it has none that of the right one; disjoint_coalesce fails exactly if an element has a value on both sides and otherwise gives the same. Results have one array per type, with values of this type only. Slices of different sizes are an error.", "quantifier": "all slices, of every size, with any number of types on each side, any items", "why_tests_cant": "one type, mixed types, empty and filtered slices take different paths, and overlaps are found by comparing counts of values", "anchors": ["koladata/internal/op_utils/presence_or.h: PresenceOrOp", "koladata/internal/op_utils/presence_and.h: PresenceAndOp", "koladata/operators/masking.cc: DisjointCoalesce"]}
{"id": "C100", "title": "Masks and defaults apply element by element", "statement": "A slice with a mask of its size has exactly its values at the elements of the mask, and a mask of another size is an error; the mask of a slice has exactly the elements with a value, whatever their types. Attributes with a default have at each element the value of the attribute, or if it has none the default, but only if the object is present. Operators on items agree with those on slices.", "quantifier": "all slices, of every size, with any number of types, all masks, all defaults", "why_tests_cant": "the result depends on types, sizes and presence of three slices at once, which go through builders with several states", "anchors": ["koladata/internal/op_utils/presence_and.h: PresenceAndOp", "koladata/internal/op_utils/has.cc: PresenceDenseArray", "koladata/internal/op_utils/coalesce_with_filtered.h: CoalesceWithFiltered", "koladata/data_slice.cc: DataSlice::GetAttrWithDefault"]}
{"id": "C101", "title": "equal compares slices item by item", "statement": "equal of two slices of the same size, with whatever types on both sides, is present exactly at the elements where both have a value, of the same type or both numeric, and the values are equal, so it is the same as equal of the items there; it does not depend on the order of the arguments. Slices of different sizes are an error.", "quantifier": "all slices, of every size, with any number of types on each side", "why_tests_cant": "results of all pairs of arrays are merged, in different ways depending on what was found before", "anchors": ["koladata/internal/op_utils/equal.cc: EqualOp", "koladata/internal/op_utils/equal.h: Comparable"]}
{"id": "C102", "title": "Cloned items get new ids of their kinds, no two the same", "statement": "The new ids for a slice are at exactly the elements that have an id, and each is of the same kind (dict, list, schema or other); different elements get different ids, in order, all within the new allocations, and the allocations have no ids that are not used.", "quantifier": "all slices, of every size, with any mix of kinds, missing elements and other values", "why_tests_cant": "two loops must agree on all mixes of kinds; an offset past an allocation would be an id of someone else", "anchors": ["koladata/internal/op_utils/new_ids_like.cc: NewIdsLike", "py/koladata/operators/core.py: clone, shallow_clone"]}
{"id": "C103", "title": "Slices as columns of indices read back", "statement": "reshape_based_on_indices of the flat values of a slice and its indices is the slice without the rows without elements at the ends; it is the same slice exactly if nothing ends with a row without elements. Missing elements are kept.", "quantifier": "all slices, of any number of dimensions and any shape, with missing elements anywhere", "why_tests_cant": "the shape is recovered from the largest keys of nested dicts, for every shape and depth", "anchors": ["py/koladata/ext/npkd.py: get_elements_indices_from_ds, reshape_based_on_indices"]}
