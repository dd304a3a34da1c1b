{"id": "C01", "title": "Imports are spliced depth-first and each file at most once", "statement": "Parsing a file returns exactly the items of that file in source order, where each import statement is replaced in place by the (recursively expanded) items of the imported file the first time that file is imported and by nothing afterwards. When the root file is named by its absolute path, no file is read twice.", "quantifier": "every finite file system, every import graph (including self-imports, diamonds and cycles), every search-path list", "why_tests_cant": "The number of import graphs is unbounded; cyclic and diamond shapes of arbitrary depth cannot be enumerated.", "anchors": ["camkes/parser/stage2.py:Parse2._resolve", "camkes/parser/stage2.py:Parse2.parse_file"]}
{"id": "C02", "title": "Import resolution terminates and fails only on a missing file", "statement": "Import expansion terminates on every import graph over finitely many files; it raises a parse error exactly when some import it encounters names no existing file, and an angle-bracket import selects the first directory of the search path, in order, that contains the file.", "quantifier": "every finite file system, import graph and search path", "why_tests_cant": "Termination over all graphs is not observable by a finite set of runs.", "anchors": ["camkes/parser/stage2.py:Parse2._resolve"]}
{"id": "C03", "title": "Numeric constant expressions evaluate left to right within a precedence level", "statement": "A lifted arithmetic expression a0 op1 a1 ... opn an has the value of applying the operators strictly left to right to exact integers (floor division and Python-style modulo); division or modulo by zero and negative shifts are reported as parse errors and never produce a value.", "quantifier": "every operand list, every operator list, every integer value", "why_tests_cant": "Unbounded integers and unbounded chain lengths.", "anchors": ["camkes/parser/stage3.py:_lift_numeric_expr", "camkes/parser/stage3.py:_lift_precedence11"]}
{"id": "C04", "title": "Logical operators in constant expressions yield 0 or 1", "statement": "As in C, && and || in a constant expression evaluate to 0 or 1, with the truth value of the conjunction or disjunction of their operands.", "quantifier": "all pairs of integer operands", "why_tests_cant": "Infinitely many operand values; the existing tests only use 0 and 1.", "anchors": ["camkes/parser/stage3.py:_lift_numeric_expr"]}
{"id": "C05", "title": "Struct/dict literals: the last binding of a key wins and no other key appears", "statement": "Lifting a {k: v, ...} literal gives a mapping whose value at key k is the value of the last pair with that key, and which has no other keys.", "quantifier": "every sequence of key/value pairs", "why_tests_cant": "Unbounded literals with arbitrary duplication patterns.", "anchors": ["camkes/parser/stage3.py:_lift_dict", "camkes/parser/stage3.py:pairwise"]}
{"id": "C06", "title": "Connector declarations keep direction and multiplicity", "statement": "The AST of a connector declaration written with interface kinds A/As from and B/Bs to has the same singular kinds, and allows multiple from (to) ends exactly when the plural form was written.", "quantifier": "all combinations of source keywords accepted by the grammar", "why_tests_cant": "Property of all keyword combinations together with the pluralisation code path in two modules.", "anchors": ["camkes/parser/stage3.py:_lift_connector_decl", "camkes/ast/objects.py:Connector", "camkes/ast/objects.py:Connector.TRANSLATION"]}
{"id": "C07", "title": "Reported source locations honour preprocessor line directives", "statement": "The file name and line number reported for a term on physical line n are those given by the last preceding line directive (offset by the number of lines since it), or the physical file and n if there is none.", "quantifier": "every preprocessed source text and every line in it", "why_tests_cant": "Unbounded texts with arbitrary directive placement.", "anchors": ["camkes/ast/location.py:SourceLocation._locate"]}
{"id": "C08", "title": "Names resolve to the innermost visible declaration and duplicates are rejected", "statement": "Resolving an unqualified reference of a given kind returns the entity of that kind and name declared in the innermost enclosing scope that declares one, or fails if none does; declaring the same name twice with the same kind in one scope is a parse error.", "quantifier": "every nesting of scopes and every sequence of declarations", "why_tests_cant": "Unbounded scope nesting and declaration histories.", "anchors": ["camkes/parser/scope.py:ScopingContext.register", "camkes/parser/scope.py:ScopingContext.lookup"]}
{"id": "C09", "title": "Closing a scope restores exactly the previous bindings", "statement": "After a scope is opened, any declarations made in it, and the scope closed again, every lookup gives the same answer as before it was opened.", "quantifier": "every declaration history inside the inner scope", "why_tests_cant": "Unbounded histories.", "anchors": ["camkes/parser/scope.py:ScopingContext.__enter__", "camkes/parser/scope.py:ScopingContext.__exit__"]}
{"id": "C10", "title": "Self-containing components are rejected and only those", "statement": "A specification in which a component (transitively) contains an instance of itself is rejected with a parse error; a specification in which none does is not rejected by this check.", "quantifier": "every finite component containment graph", "why_tests_cant": "Cycles of arbitrary length in arbitrary graphs.", "anchors": ["camkes/parser/stage4.py:check_acyclic"]}
{"id": "C11", "title": "Flattening groups preserves instances and gives each group one address space", "statement": "After groups are collapsed the composition has exactly the original instances followed by the groups' members in order; every member of a group carries the group's name as address space, and ungrouped instances keep theirs. Members of two distinct groups of one composition never share an address space.", "quantifier": "every composition, any number of named and anonymous groups", "why_tests_cant": "Unbounded numbers of groups and arbitrary user-chosen names.", "anchors": ["camkes/parser/stage5.py:Parse5", "camkes/parser/stage5.py:collapse_groups"]}
{"id": "C12", "title": "Composing several assemblies keeps every declaration", "statement": "After assembly composition there is exactly one assembly; its instances, connections and settings are those of all assemblies in source order; nothing else in the specification changes; a specification without an assembly is rejected.", "quantifier": "every list of top-level items", "why_tests_cant": "Unbounded numbers of assemblies.", "anchors": ["camkes/parser/stage6.py:compose_assemblies"]}
{"id": "C13", "title": "Flattening the hierarchy gives each instance its unique dotted path name", "statement": "The flattened assembly contains one instance for every path through the component hierarchy, named by the dot-joined path; when sibling names are distinct and contain no dot, all flattened names are distinct.", "quantifier": "every finite component hierarchy of any depth", "why_tests_cant": "Unbounded depth and branching.", "anchors": ["camkes/parser/stage7.py:infer_all", "camkes/parser/stage7.py:derive"]}
{"id": "C14", "title": "Exported interfaces are replaced by the interface they stand for", "statement": "After flattening, every connection end names an interface that is not itself an export of a compound component: following export statements through all levels leads to the unique underlying interface, and that interface is the one connected.", "quantifier": "every hierarchy and every export chain length", "why_tests_cant": "Unbounded export chains.", "anchors": ["camkes/parser/stage7.py:infer_all", "camkes/parser/stage7.py:Parse7"]}
{"id": "C15", "title": "Settings of nested compositions are qualified by the full instance path", "statement": "A setting or attribute reference written inside a component is, after flattening, addressed to the instance with the full dotted path of each place the component is instantiated, and the value is unchanged.", "quantifier": "every hierarchy and every setting", "why_tests_cant": "Unbounded depth and numbers of instantiations of one component.", "anchors": ["camkes/parser/stage7.py:derive", "camkes/parser/stage7.py:infer_all"]}
{"id": "C16", "title": "Attribute references resolve to the value at the end of the chain", "statement": "If following setting references from a setting reaches a concrete value, that value is what the setting has after resolution, independently of the order in which settings are written; no setting is left holding a reference.", "quantifier": "every finite set of settings and every reference chain", "why_tests_cant": "Arbitrary chains and orders of settings.", "anchors": ["camkes/parser/stage8.py:resolve", "camkes/parser/stage8.py:sub_resolve"]}
{"id": "C17", "title": "Circular attribute references are rejected", "statement": "Resolution of attribute references always terminates, and a setting whose chain of references is circular causes a parse error.", "quantifier": "every finite reference graph", "why_tests_cant": "Termination over all graphs.", "anchors": ["camkes/parser/stage8.py:sub_resolve"]}
{"id": "C18", "title": "Connections sharing an end are merged into one multi-way connection", "statement": "After consolidation, connection ends are partitioned: two original connections end up in the same merged connection exactly when they are linked by a chain of shared ends; every original end appears in exactly one resulting connection, and connections of different connector types that share an end are rejected.", "quantifier": "every list of connections and every sharing pattern", "why_tests_cant": "Sharing patterns form arbitrary hypergraphs; the failing orderings are rare.", "anchors": ["camkes/parser/stage9.py:consolidate", "camkes/parser/stage9.py:Parse9"]}
{"id": "C19", "title": "Freezing rejects duplicate entity names and then gives a faithful name lookup", "statement": "Freezing a composite AST object fails exactly when two of its children have the same name; otherwise looking a name up returns the unique child of that name and iteration yields exactly the child names.", "quantifier": "every child list", "why_tests_cant": "Unbounded child lists.", "anchors": ["camkes/ast/base.py:MapLike.freeze", "camkes/ast/base.py:MapLike.__getitem__"]}
{"id": "C20", "title": "Every mandatory interface is connected exactly once in an accepted assembly", "statement": "If an assembly is accepted, no interface of any instance takes part in two connections, and every consumes/uses/dataport interface that is not optional is connected, or stands for an exported interface of a nested component.", "quantifier": "every assembly", "why_tests_cant": "Universal over all assemblies.", "anchors": ["camkes/ast/objects.py:Composition.freeze"]}
{"id": "C21", "title": "Configuration lookup returns the setting, else the attribute default", "statement": "In an accepted assembly, the configuration entry of instance i and attribute a is the value of the setting i.a when present (there is at most one), otherwise the declared default of a, otherwise absent.", "quantifier": "every configuration and composition", "why_tests_cant": "Unbounded settings.", "anchors": ["camkes/ast/objects.py:Configuration.freeze"]}
{"id": "C22", "title": "Accepted connections join compatible ends only", "statement": "If a connection is accepted it has at least one from-end and one to-end, respects the connector's multiplicity, all from-ends are emits/uses/dataport and all to-ends consumes/provides/dataport of the kind the connector joins, and hardware ends occur only on the hardware side of a hardware connector.", "quantifier": "every connection", "why_tests_cant": "Universal over all combinations of ends.", "anchors": ["camkes/ast/objects.py:Connection.freeze"]}
{"id": "C23", "title": "Frozen AST objects are immutable and freezing is idempotent", "statement": "Once an AST object is frozen its fields can no longer be assigned and it can never be unfrozen; freezing again changes nothing; every descendant of a frozen object is frozen.", "quantifier": "every AST and every later sequence of attribute assignments", "why_tests_cant": "All operation sequences.", "anchors": ["camkes/ast/base.py:ASTObject.freeze", "camkes/ast/objects.py:ast_property"]}
{"id": "C24", "title": "Settings accepted by type checking have a value of the declared attribute type", "statement": "If an assembly is accepted, each setting of a declared attribute holds a value of the declared type (integers for integer types, lists element-wise, structs field-wise).", "quantifier": "every attribute type, including nested lists and structs, and every value", "why_tests_cant": "Recursive types and values.", "anchors": ["camkes/ast/objects.py:types_compatible", "camkes/ast/objects.py:Assembly.freeze"]}
{"id": "C25", "title": "AST traversal visits every node, children first (post-order) or parents first (pre-order)", "statement": "A post-order traversal calls the action once for each occurrence of a node (or of the empty value, for child fields that are unset) reachable through child fields, after all its descendants; iterating a lifted AST yields that sequence. A pre-order traversal calls it on parents first and does not descend into nodes the action replaced. Afterwards each item is the one the action returned for it.", "quantifier": "every tree and every action", "why_tests_cant": "Unbounded trees.", "anchors": ["camkes/ast/base.py:ASTObject.postorder", "camkes/ast/base.py:ASTObject.preorder", "camkes/ast/liftedast.py:LiftedAST.__iter__"]}
{"id": "C26", "title": "Equal AST objects are interchangeable as dictionary keys", "statement": "Structural comparison of AST objects is reflexive, symmetric and transitive, ignores location and parent, and equal objects have equal hashes.", "quantifier": "all pairs and triples of AST objects", "why_tests_cant": "All pairs.", "anchors": ["camkes/ast/base.py:ASTObject.__cmp__", "camkes/ast/base.py:ASTObject.__hash__", "camkes/internal/hash.py:camkes_hash"]}
{"id": "C27", "title": "Device-tree cell packing and unpacking are inverse", "statement": "Packing a list of cell values into 32-bit words and unpacking with the same cell sizes returns the values; unpacking rejects data of the wrong length.", "quantifier": "every list of cell sizes and in-range values", "why_tests_cant": "Unbounded data.", "anchors": ["camkes/parser/fdtQueryEngine.py:DtbMatchQuery.unpack", "camkes/parser/fdtQueryEngine.py:DtbMatchQuery.pack"]}
{"id": "C28", "title": "Device addresses are translated through every bus ranges property", "statement": "A register address inside one of a bus's ranges windows is translated to the parent address at the same offset in the window, at each level up to the root; a region that sticks out of its window is rejected, and so is a ranges property of the root.", "quantifier": "every ranges table, every address and size, every nesting depth", "why_tests_cant": "All addresses and nested buses.", "anchors": ["camkes/parser/fdtQueryEngine.py:DtbMatchQuery.xlat_reg", "camkes/parser/fdtQueryEngine.py:DtbMatchQuery.xlat_regs"]}
{"id": "C29", "title": "Device-tree queries return only nodes satisfying every stated condition", "statement": "A query that gives a path and properties returns only nodes that match the path and all the properties. An alias or a chosen entry yields the one node whose path it stands for.", "quantifier": "every device tree and query", "why_tests_cant": "Universal over trees and queries.", "anchors": ["camkes/parser/fdtQueryEngine.py:DtbMatchQuery._match_nodes_by_attrs", "camkes/parser/fdtQueryEngine.py:DtbMatchQuery._match_attr_dict"]}
{"id": "C30", "title": "Query result keys become C identifiers without losing values", "statement": "After key normalisation every key of a query result consists of word characters only, and each original entry is still available under its normalised key.", "quantifier": "every result dictionary", "why_tests_cant": "Collisions depend on arbitrary key sets.", "anchors": ["camkes/parser/query.py:update_dict_keys"]}
{"id": "C31", "title": "Rounding helpers return the nearest multiple", "statement": "Rounding up (down) to an alignment returns the least multiple not below (the greatest multiple not above) the argument, and page-size selection returns the largest supported page size not larger than the region and dividing it.", "quantifier": "all non-negative integers and positive alignments", "why_tests_cant": "Unbounded integers.", "anchors": ["camkes/templates/macros.py:ROUND_UP", "camkes/templates/macros.py:ROUND_DOWN", "camkes/templates/macros.py:get_page_size", "camkes/templates/macros.py:next_page_multiple"]}
{"id": "C32", "title": "Untyped decomposition tiles an address range exactly", "statement": "Splitting a physical range into untyped objects yields naturally aligned power-of-two blocks, in ascending order, pairwise disjoint, whose union is exactly the range.", "quantifier": "every start and end address within the architecture limits", "why_tests_cant": "All address ranges.", "anchors": ["camkes/templates/macros.py:get_untypeds_from_range"]}
{"id": "C33", "title": "The integer type chosen for method indices can hold every index", "statement": "The C type selected for an interface with n methods can represent every method index 0..n-1, and none smaller can.", "quantifier": "every number of methods", "why_tests_cant": "Unbounded n; boundary values are the interesting ones.", "anchors": ["camkes/templates/macros.py:type_to_fit_integer"]}
{"id": "C34", "title": "Notification badges on the global endpoint are distinguishable", "statement": "The badges handed out to the connections and interrupts of one instance are pairwise different single bits combined with the base, all within the configured mask, so a received word identifies exactly which sources fired; if they cannot be distinguished an error is raised.", "quantifier": "every assembly, mask and base", "why_tests_cant": "All assemblies and masks.", "anchors": ["camkes/templates/macros.py:global_endpoint_badges"]}
{"id": "C35", "title": "RPC badges identify clients uniquely", "statement": "The badges for the clients of one RPC interface are pairwise different, lie within the mask and respect explicitly configured values; exhaustion raises an error.", "quantifier": "every set of clients, masks and explicit badge settings", "why_tests_cant": "All configurations.", "anchors": ["camkes/templates/macros.py:global_rpc_endpoint_badges", "camkes/templates/rpc-connector.c:allocate_badges"]}
{"id": "C36", "title": "Virtqueue ids are unique and the search always succeeds", "statement": "Each client without an explicit id receives an id different from all other ids of that instance and id allocation always terminates with an id.", "quantifier": "every list of explicitly configured and unconfigured ids", "why_tests_cant": "All lists.", "anchors": ["camkes/templates/macros.py:virtqueue_get_client_id"]}
{"id": "C37", "title": "Integrity labels are a function of the group equivalence", "statement": "Following label-group assignments yields one canonical label for each label, all members of a group share it, and cyclic assignments are rejected.", "quantifier": "every label mapping", "why_tests_cant": "Arbitrary mappings.", "anchors": ["camkes/templates/macros.py:integrity_group_labels"]}
{"id": "C38", "title": "Object allocation by name is idempotent and rights only grow", "statement": "Allocating the same name twice yields the same object and capability, the capability's rights are the union of all requested rights, and allocations under different names never alias.", "quantifier": "every sequence of allocation requests", "why_tests_cant": "All histories.", "anchors": ["camkes/runner/Context.py:alloc_obj", "camkes/runner/Context.py:alloc_cap", "camkes/runner/Context.py:guard"]}
{"id": "C39", "title": "Generated symbols never collide", "statement": "All symbols generated in one rendering context are pairwise different, whatever tags are requested, and the C symbols lie in the reserved name space, so they do not collide with names of the user either.", "quantifier": "every sequence of requested tags", "why_tests_cant": "All sequences.", "anchors": ["camkes/runner/Context.py:symbol"]}
{"id": "C40", "title": "Shared-variable frames cover the variable exactly and agree between users", "statement": "Registering a shared variable creates size/frame-size frames with distinct names covering the variable without gaps; all components registering the same variable get the same frames in the same order.", "quantifier": "every size, frame size and sequence of registrations", "why_tests_cant": "All histories.", "anchors": ["camkes/runner/Context.py:register_shared_variable", "camkes/runner/Context.py:calc_frame_size"]}
{"id": "C41", "title": "The runner rejects mismatched output/item/template argument lists", "statement": "If the numbers of --outfile, --item and --template arguments differ, or a file is named twice as output, the runner reports an error; otherwise the i-th item is rendered with the i-th template into the i-th file.", "quantifier": "all argument counts", "why_tests_cant": "All triples of counts.", "anchors": ["camkes/runner/__main__.py:main"]}
{"id": "C42", "title": "Dependency extraction from preprocessor make rules returns exactly the prerequisites", "statement": "Parsing the make rule emitted by the preprocessor returns the prerequisite file names, joining continuation lines.", "quantifier": "every list of prerequisite names without white space or backslash", "why_tests_cant": "All lists.", "anchors": ["camkes/parser/stage0.py:parse_makefile_rule"]}
{"id": "C43", "title": "DMA allocations are aligned, inside the pool and never overlap live memory", "statement": "Every successful DMA allocation is aligned as requested, lies within memory given to the allocator, is physically contiguous, and overlaps neither another live allocation nor any free region; freed and live memory together always make up the pool.", "quantifier": "every history of init, alloc and free calls", "why_tests_cant": "All histories of sizes and alignments.", "anchors": ["libsel4camkes/src/dma.c:camkes_dma_alloc", "libsel4camkes/src/dma.c:camkes_dma_free", "libsel4camkes/src/dma.c:try_alloc_from_free_region"]}
{"id": "C44", "title": "Defragmenting the DMA free list preserves the set of free bytes", "statement": "Coalescing never changes which bytes are free, keeps regions disjoint, terminates and leaves no two adjacent compatible regions unmerged.", "quantifier": "every free list", "why_tests_cant": "All lists and merge orders.", "anchors": ["libsel4camkes/src/dma.c:defrag"]}
{"id": "C45", "title": "Cached and uncached DMA memory are never confused", "statement": "An allocation requested as cached (uncached) only ever returns memory that was given to the allocator as cached (uncached).", "quantifier": "every history", "why_tests_cant": "Depends on left-over memory contents after splits.", "anchors": ["libsel4camkes/src/dma.c:try_alloc_from_free_region", "libsel4camkes/src/dma.c:free_region"]}
{"id": "C46", "title": "Notification connector: no event is lost or delivered twice", "statement": "For every interleaving of the event thread and the application's poll, wait and register-callback calls, the callback slot is only touched under the lock, each received event is consumed exactly once (by a callback, a poll or a wait), and a registered callback is never overwritten.", "quantifier": "every schedule and every number of events and threads", "why_tests_cant": "All interleavings.", "anchors": ["camkes/templates/seL4Notification-to.template.c", "camkes/templates/seL4NotificationQueue-to.template.c"]}
{"id": "C47", "title": "RPC marshalling round-trips", "statement": "Unmarshalling a message produced by marshalling a method's parameters gives back the same method index and parameter values, for inputs and for outputs; marshalling fails (without writing past the buffer) exactly when the message does not fit.", "quantifier": "every parameter list, every value, every buffer size", "why_tests_cant": "All values and sizes.", "anchors": ["camkes/templates/helpers/marshal.c", "libsel4camkes/include/camkes/marshal_macros.h"]}
{"id": "C48", "title": "RPC unmarshalling never reads beyond the message", "statement": "Unmarshalling any received bytes either fails with a malformed-payload error or returns values that were entirely contained in the message, for every array length claimed by the sender.", "quantifier": "every byte sequence a client can send", "why_tests_cant": "Adversarial inputs.", "anchors": ["libsel4camkes/include/camkes/marshal_macros.h:UNMARSHAL_ARRAY_PARAM", "libsel4camkes/include/camkes/marshal_macros.h:UNMARSHAL_STRING_PARAM"]}
{"id": "C49", "title": "The capability pool never hands out a capability twice", "statement": "A capability is handed out only if it was provided, matches type, size and flags and is not currently handed out; freeing makes it available again.", "quantifier": "every history of provide/alloc/free calls", "why_tests_cant": "All histories.", "anchors": ["libsel4camkes/src/allocator.c"]}
{"id": "C50", "title": "I/O mapping returns memory that backs the whole requested physical range", "statement": "When mapping a physical range succeeds, every byte of the range is backed by mapped frames at the corresponding virtual offset; when frames in the table cover the range, mapping succeeds.", "quantifier": "every frame table and request", "why_tests_cant": "All tables.", "anchors": ["libsel4camkes/src/io.c:camkes_io_map"]}
{"id": "C51", "title": "Registered driver interfaces are found again; duplicates are refused", "statement": "Any number of distinct instances of one interface type can be registered, registering the same instance twice is refused, and a search visits exactly the registered instances of the type.", "quantifier": "every sequence of register/unregister/find calls", "why_tests_cant": "All histories.", "anchors": ["libsel4camkes/src/interface_registration.c"]}
{"id": "C52", "title": "Interrupts are matched to the entry with the same description and dispatched to the right handler", "statement": "Registering an interrupt selects an unallocated entry describing the same interrupt (matching is symmetric); a global-endpoint wake-up calls exactly the handlers whose badge bits are set.", "quantifier": "all interrupt descriptions and badge words", "why_tests_cant": "All pairs.", "anchors": ["libsel4camkes/src/irq.c"]}
{"id": "C53", "title": "Virtqueue buffers handed out are distinct and inside the shared region", "statement": "Every buffer allocated from a virtqueue block allocator is block aligned within the shared buffer and differs from all buffers currently allocated; freeing makes it available again.", "quantifier": "every history of alloc/free calls", "why_tests_cant": "All histories.", "anchors": ["libsel4camkes/src/virtqueue.c", "libsel4camkes/src/virtqueue_common.c:init_vq_allocator"]}
{"id": "C54", "title": "Reply capabilities are saved before they can be overwritten", "statement": "In every run of the reply-capability protocol the reply cap declared for a thread is saved to its shadow slot at most once, before any blocking operation, and an error in saving is reported to the declarer.", "quantifier": "every sequence of declare/protect/unprotect calls", "why_tests_cant": "All histories.", "anchors": ["libsel4camkes/src/tls.c"]}
{"id": "C55", "title": "Device-tree interrupt specifiers decode to the interrupts they describe", "statement": "For each supported interrupt controller form, decoding the interrupts property yields one entry per specifier with the right number, type offset and trigger; malformed lengths raise an error.", "quantifier": "every specifier list", "why_tests_cant": "All lists.", "anchors": ["camkes/templates/macros.py:parse_dtb_node_interrupts"]}
{"id": "C56", "title": "The RPC server answers every request exactly once and to the client that sent it", "statement": "For every sequence of requests, including handlers that block or call out and requests that are dropped because of an error, each request that is not dropped is answered exactly once, to its own client.", "quantifier": "every sequence of requests, handler actions and errors", "why_tests_cant": "All histories.", "anchors": ["camkes/templates/rpc-connector.c", "camkes/templates/rpc-connector-common-to.c", "libsel4camkes/src/tls.c"]}
{"id": "C57", "title": "Messages sent through a virtqueue arrive unchanged", "statement": "Data scattered into a virtqueue by one side and gathered by the other is the data that was sent, for messages of any length, any number of messages in flight and any order of answering; buffers come back when messages are collected.", "quantifier": "every history of send, receive, answer and collect operations", "why_tests_cant": "All histories and sizes.", "anchors": ["libsel4camkes/src/virtqueue.c:camkes_virtqueue_driver_scatter_send_buffer", "libsel4camkes/src/virtqueue.c:camkes_virtqueue_device_gather_copy_buffer"]}
{"id": "C58", "title": "Threads that share the buffer of an RPC connection do not disturb each other", "statement": "With any number of client threads calling through one shared buffer, at most one uses the buffer at a time, every call that returns gives the answer to its own parameters, and after any call (also one that failed) other threads can call again.", "quantifier": "every interleaving of any number of threads, and every error", "why_tests_cant": "All schedules.", "anchors": ["camkes/templates/rpc-connector-common-from.c", "camkes/templates/rpc-connector.c:begin_send", "camkes/templates/rpc-connector.c:release_recv"]}
{"id": "C59", "title": "A registered virtqueue channel is found again by its id, role and name", "statement": "After any sequence of registrations, looking up an id and role gives the channel last registered with that id and role and nothing else; looking up a name gives an id registered under that name, or an error if there is none.", "quantifier": "every sequence of registrations and lookups", "why_tests_cant": "All histories.", "anchors": ["libsel4camkes/src/virtqueue_template.c:camkes_virtqueue_channel_register", "libsel4camkes/src/virtqueue.c:get_virtqueue_channel", "libsel4camkes/src/virtqueue.c:camkes_virtqueue_get_id_from_name"]}
{"id": "C60", "title": "Each item of the command line names exactly one entity, and files are written in order", "statement": "An item of the form assembly/..., instance/source, instance/... or connection end selects the entity it spells and no other, rendered for the address space of that entity; anything else is an error. The output files are written in the order given; on an error exactly those before the first failing item have been written.", "quantifier": "every assembly and every list of items", "why_tests_cant": "All names and all assemblies.", "anchors": ["camkes/runner/__main__.py:main", "camkes/runner/__main__.py:parse_args"]}
{"id": "C61", "title": "Allocation of DMA memory succeeds whenever there is enough contiguous free memory", "statement": "If somewhere in the free memory of a DMA pool there is a physically contiguous run of free bytes with the requested caching that is long enough for the request and its alignment, then the allocation succeeds, however fragmented the pool has become.", "quantifier": "every history of initialisations, allocations and frees, and every request", "why_tests_cant": "All histories.", "anchors": ["libsel4camkes/src/dma.c:camkes_dma_alloc", "libsel4camkes/src/dma.c:defrag", "libsel4camkes/src/dma.c:try_alloc_from_free_list"]}
{"id": "C62", "title": "Initialisation functions run in order and every interface gets started", "statement": "In a component, pre_init runs before any interface is initialised, post_init runs only when every interface has been initialised, interfaces and the control thread run only after post_init, nothing runs twice, and under every schedule everything is eventually started; no thread falls out of its main function, and passive interfaces and the fault handler take part in this as described.", "quantifier": "every component instance with any number of interfaces, passive or not, with or without a fault handler, and every schedule of its threads", "why_tests_cant": "Schedules of the threads are unbounded; tests run a few.", "anchors": ["camkes/templates/component.common.c:pre_init_interface_sync", "camkes/templates/component.common.c:post_init_interface_sync", "camkes/templates/component.common.c:post_main", "camkes/templates/component.environment.c:component_control_main"]}
{"id": "C63", "title": "A wrapped dataport pointer denotes the same byte in every component that shares the dataport", "statement": "Wrapping a pointer that lies in a dataport and unwrapping the result in any component that has the other end of the same connection yields a pointer to the same byte of the shared memory; in the same component it yields the same pointer. Wrapping a pointer that lies in no dataport, and unwrapping a pointer into a dataport that the receiver does not share, fails. What unwraps always lies in a dataport.", "quantifier": "every set of dataports of the two components, every kind of dataport, every address and every wrapped value", "why_tests_cant": "The address space is too large to enumerate, and the layouts are chosen by the linker.", "anchors": ["camkes/templates/component.common.c:dataport_wrap_ptr", "camkes/templates/component.common.c:dataport_unwrap_ptr", "camkes/templates/seL4SharedData.template.c", "camkes/templates/seL4HardwareMMIO.template.c"]}
{"id": "C64", "title": "The memory map that is printed for a fault is complete, ordered and marks the fault", "statement": "When a component faults, the map that is printed shows every region of its address space exactly once, from the highest to the lowest, says where memory is not described, and marks the address of the fault in each region that contains it and nowhere else; the map printed for a thread consists of its stack and IPC buffer with their guards and the regions of its component.", "quantifier": "every list of memory regions, in any order, and every fault address", "why_tests_cant": "The order of regions and their gaps is arbitrary.", "anchors": ["libsel4camkes/src/fault.c:camkes_show_fault", "libsel4camkes/src/fault.c:show_fault_location", "camkes/templates/component.common.c"]}
{"id": "C65", "title": "Every device that has a driver is initialised exactly once, drivers that defer are called again", "statement": "Each device listed for initialisation is given to the first driver module with a compatible string; the driver is called until it gives an answer other than \"later\", after which it is not called for that device again; no other driver is called. Drivers that defer are called again in rounds, in their order. The initialisation ends if drivers wait for each other without a cycle. No device is lost.", "quantifier": "every list of devices and modules, every behaviour of the drivers (which may depend on everything that has happened) and every behaviour of the allocator", "why_tests_cant": "The answers of drivers and their order are unbounded; the lists are rebuilt in place.", "anchors": ["libsel4camkes/src/io.c:camkes_call_hardware_init_modules", "libsel4camkes/src/io.c:handle_defered_modules", "libsel4camkes/src/io.c:find_compatible_driver_module", "libsel4camkes/src/io.c:defer_driver_init"]}
{"id": "C66", "title": "A range of memory is accepted by madvise, mincore, mlock and munlock exactly if it is mapped", "statement": "For every layout of a component's sections, stacks and IPC buffers and for every page-aligned range, madvise, mincore, mlock and munlock succeed if every byte of the range is mapped and accessible, and report an error if some byte is a guard page or is not mapped.", "quantifier": "every address-space layout, every set of threads and every range", "why_tests_cant": "All layouts and ranges; a test reaches a few of them.", "anchors": ["libsel4camkes/src/sys_madvise.c:covered", "libsel4camkes/src/sys_madvise.c:camkes_sys_madvise", "libsel4camkes/src/sys_madvise.c:camkes_sys_mincore", "libsel4camkes/src/sys_madvise.c:mlock_internal", "camkes/templates/component.common.c:camkes_vmas"]}
{"id": "C67", "title": "select waits for the sockets of the descriptors it is given and reports exactly those that are ready", "statement": "For every table of descriptors and every sets of descriptors, the server is asked about exactly the sockets of the descriptors in the sets, and the sets afterwards contain exactly the descriptors whose sockets it reported.", "quantifier": "every descriptor table, every sets of descriptors and every answer", "why_tests_cant": "All tables and sets.", "anchors": ["libsel4camkes/src/sys_select.c:camkes_sys__newselect", "libsel4camkes/src/sys_select.c:fdset_to_sockset", "libsel4camkes/src/sys_select.c:sockset_to_fdset"]}
{"id": "C68", "title": "System calls on a descriptor reach its socket with the data of the caller", "statement": "After every history of socket, accept, close, read, write, bind, connect, listen, setsockopt and file calls, a call on a descriptor reaches the server with the socket that this descriptor was opened for and with the data of the caller, never with another socket or after close; results of the server reach the caller, errors included.", "quantifier": "every history of system calls and every answer of the server", "why_tests_cant": "All histories.", "anchors": ["libsel4camkes/src/sys_socket.c", "libsel4camkes/src/sys_io.c:camkes_sys_close", "libsel4camkes/src/sys_io.c:camkes_sys_write", "libsel4camkes/src/sys_io.c:camkes_sys_read"]}
{"id": "C69", "title": "Cache maintenance of device memory works on exactly the bytes that are asked for", "statement": "For every range within a hardware dataport, flushing, cleaning or invalidating it operates on every cache line with a byte of the range, on no other memory, and reports success only then; a range that is not within the dataport, or a dataport that does not exist, is refused without any effect.", "quantifier": "every layout of frames, every dataport, every range and every answer of the kernel", "why_tests_cant": "All ranges, page sizes and layouts.", "anchors": ["libsel4camkes/src/arch/arm/dataport.c:camkes_dataport_arch_flush_cache", "camkes/templates/seL4HardwareMMIO.template.c", "camkes/templates/seL4DTBHardware-to.template.c"]}
{"id": "C70", "title": "An access through an I/O port interface reaches the port that it names", "statement": "For every set of port regions, an access of 1, 2 or 4 bytes through an interface reaches the device at the named port with the value of the caller, and the answer is what the device gave; an access outside the region of the interface has no effect and is reported.", "quantifier": "every set of regions, every interface, offset, width and value", "why_tests_cant": "All regions, offsets and values.", "anchors": ["libsel4camkes/src/arch/x86/io.c", "camkes/templates/seL4HardwareIOPort.template.c"]}
{"id": "C71", "title": "An error is handled by the handler that is registered for it", "statement": "After every history of registrations, an error in an interface is given exactly once to the handler last registered for the interface, or else to the one last registered for the component, or else to the default one; the action that it returns is carried out. Registering a handler returns the one it replaces; registering NULL takes a handler back.", "quantifier": "every history of registrations and errors, every handler and every configuration", "why_tests_cant": "All histories.", "anchors": ["libsel4camkes/src/error.c", "camkes/templates/helpers/error.c", "libsel4camkes/include/camkes/error.h"]}
{"id": "C72", "title": "Every mutex made at run time has a notification of its own", "statement": "After every history of making and freeing mutexes and of other uses of the allocator, mutexes that exist have different notifications that nobody else is given; making one fails only if no notification or no memory is available, and then leaves everything as it was; freeing one makes its notification available again and leaves the others.", "quantifier": "every history of calls, every outcome of calloc and of the initialisation", "why_tests_cant": "All histories.", "anchors": ["libsel4camkes/src/sync.c:camkes_mutex_new", "libsel4camkes/src/sync.c:camkes_mutex_free", "libsel4camkes/src/allocator.c"]}
{"id": "C73", "title": "Messages of a message queue arrive once, in order and unchanged", "statement": "For every interleaving of a sender and a receiver of a message queue, what the receiver gets is a beginning of the sequence of messages that were sent, byte for byte, even while both copy at the same time; send fails only if the message is too long or if as many messages were under way as the queue can hold, get fails only if there is no message or the buffer is too small, and both return otherwise. Registrations of queues that cannot work are refused, and a channel is found exactly by the number and role it was registered with.", "quantifier": "every interleaving of the bytes of the sender and the receiver, every sequence of messages, every size of memory and rings, every history of registrations", "why_tests_cant": "Interleavings at the granularity of bytes and unbounded histories.", "anchors": ["libsel4camkes/src/msgqueue.c", "libsel4camkes/src/msgqueue_template.c", "libsel4camkes/src/virtqueue_common.c"]}
{"id": "C74", "title": "Every packet of the debugger is executed exactly once, unchanged", "statement": "Whatever arrived before on the serial line, a packet with any data and a right checksum is acknowledged and its command is executed exactly once with exactly the data sent; a packet with a wrong checksum is refused and not executed; nothing else is ever executed. Every answer is a well-formed packet, and no character of it is lost on the line.", "quantifier": "every sequence of characters on the line, every packet and every answer", "why_tests_cant": "All sequences of characters.", "anchors": ["libsel4camkes/src/sel4_arch/ia32/gdb_server/serial.c:handle_char", "libsel4camkes/src/sel4_arch/ia32/gdb_server/gdb.c:handle_gdb", "libsel4camkes/src/sel4_arch/ia32/gdb_server/gdb.c:send_message"]}
{"id": "C75", "title": "The debugger reads and writes exactly the memory it names", "statement": "For every address and length, a read command answers the bytes in the range, or an error if they cannot be read; a write command changes exactly the bytes of the range to those sent, or answers an error and changes nothing; what was written is read back.", "quantifier": "every memory, address, length and data", "why_tests_cant": "All addresses, lengths and data.", "anchors": ["libsel4camkes/src/sel4_arch/ia32/gdb_server/gdb.c:GDB_read_memory", "libsel4camkes/src/sel4_arch/ia32/gdb_server/gdb.c:GDB_write_memory", "libsel4camkes/src/sel4_arch/ia32/gdb_server/gdb.c:GDB_write_memory_binary", "camkes/templates/component.debug.c:delegate_read_memory", "camkes/templates/component.debug.c:delegate_write_memory", "camkes/templates/seL4GDBMem-to.template.c"]}
{"id": "C76", "title": "The debugger reads and writes exactly the register it names, and breakpoints are those it set", "statement": "Reading a register answers its value in the stopped thread; writing one changes it to the value and nothing else, and is answered with an error if it is not done. After every history, the breakpoints of a thread are exactly those that were set and not taken away; setting one fails only if all monitors are in use.", "quantifier": "every thread, register, value and history of commands and stops", "why_tests_cant": "All histories and values.", "anchors": ["libsel4camkes/src/sel4_arch/ia32/gdb_server/gdb.c:GDB_read_register", "libsel4camkes/src/sel4_arch/ia32/gdb_server/gdb.c:GDB_write_register", "libsel4camkes/src/sel4_arch/ia32/gdb_server/gdb.c:GDB_read_general_registers", "libsel4camkes/src/sel4_arch/ia32/gdb_server/gdb.c:GDB_write_general_registers", "libsel4camkes/src/sel4_arch/ia32/gdb_server/gdb.c:GDB_breakpoint", "camkes/templates/component.debug.c:delegate_write_registers", "camkes/templates/component.debug.c:delegate_insert_break", "camkes/templates/component.debug.c:delegate_remove_break"]}
{"id": "C77", "title": "A stopped thread stays stopped until the debugger resumes it, and then runs as told", "statement": "For every interleaving of the threads of the component, the fault handler and the debugger: a thread that hits a breakpoint or faults is reported exactly once, with the reason; it executes nothing until the debugger resumes it; after a step it executes exactly one instruction and is reported again; after continue it runs until its next breakpoint or fault. Every command is answered as the protocol says.", "quantifier": "every interleaving of instructions, faults, receptions and commands", "why_tests_cant": "All interleavings and histories.", "anchors": ["camkes/templates/seL4GDB-to.template.c", "libsel4camkes/src/sel4_arch/ia32/gdb_server/gdb.c:gdb_handle_fault", "libsel4camkes/src/sel4_arch/ia32/gdb_server/gdb.c:GDB_continue", "libsel4camkes/src/sel4_arch/ia32/gdb_server/gdb.c:GDB_step", "libsel4camkes/src/sel4_arch/ia32/gdb_server/gdb.c:GDB_vcont", "libsel4camkes/src/sel4_arch/ia32/gdb_server/gdb.c:GDB_stop_reason", "libsel4camkes/src/sel4_arch/ia32/gdb_server/gdb.c:handle_command", "camkes/templates/component.debug.c:delegate_step"]}
{"id": "C78", "title": "Attribute values reach the generated code unchanged", "statement": "For every attribute and every value that the type checker accepts for it, the constant in the generated C code has that value: integers, floating point numbers, strings, arrays with all their elements, structs with all their fields. Every struct is defined exactly once, with the fields, types and dimensions that its values need, and before it is used.", "quantifier": "every attribute type with nested structs and arrays, every value", "why_tests_cant": "All values and nestings of types; the tests render a few fixed components and do not look at strings with special characters or arrays in structs.", "anchors": ["camkes/templates/macros.py:show_attribute_value", "camkes/templates/macros.py:print_type_definitions", "camkes/templates/macros.py:show_type", "camkes/templates/component.template.h", "camkes/templates/component.common.c"]}
{"id": "C79", "title": "Hardware interrupts reach their handler", "statement": "For every schedule of the device, the interrupt's thread, the handlers that acknowledge and a driver that registers a callback: after a callback is registered, every interrupt of the device is followed by a call of that callback with its data, once the interrupt's thread has nothing left to do and all calls have acknowledged; a component with its own `handle` function gets the same. The interrupt's thread never calls a null pointer.", "quantifier": "every schedule of any length, every callback and data", "why_tests_cant": "The registration takes several steps, and an interrupt may come between any two of them; tests have no device that interrupts at every point.", "anchors": ["camkes/templates/seL4HardwareInterrupt.template.c:{{ me.interface.name }}__run", "libsel4camkes/src/irq.c:camkes_irq_register", "libsel4camkes/src/irq.c:camkes_irq_unregister"]}
{"id": "C80", "title": "The configured interrupt is the one that is allocated and found", "statement": "For all settings of a device: the interrupt handler that the tool allocates, and the entry through which a driver finds it, are the ones that the settings describe, with the documented defaults; a driver that asks for the interrupt as it was configured gets it. Settings that describe no interrupt are refused with a message that is true.", "quantifier": "every assignment of settings, of any type, present or missing", "why_tests_cant": "The combinations of types of interrupts with missing, wrong and default settings cannot be enumerated by examples.", "anchors": ["camkes/templates/seL4HardwareInterrupt.template.c", "libsel4camkes/src/irq.c:check_irq"]}
{"id": "C81", "title": "Events of an IOAPIC interrupt are delivered once", "statement": "For every schedule of the device, the interrupt's thread and any number of threads that poll, wait or register callbacks: each interrupt is delivered once, either to the callbacks that are registered at that time, each called once and with the argument it was registered with, or to one thread that polls or waits; a thread that waits returns after the next interrupt, and interrupts go on being delivered.", "quantifier": "every schedule of any length, any number of threads and registrations", "why_tests_cant": "The functions share variables without a lock, so the outcome depends on the interleaving; a test sees a few of them.", "anchors": ["camkes/templates/seL4IOAPICHardwareInterrupt.template.c"]}
{"id": "C82", "title": "A declaration becomes the object that was written", "statement": "For every description that the grammar accepts: each declaration (assembly, component, composition, configuration, connector, procedure, struct), with everything nested in it to any depth, becomes exactly one object that holds every item that was written, once, among its kind and in the order written, with its name, types, values and flags, and nothing that was not written; the declarations of a file keep their order. A description that has no meaning is refused with a parse error, and nothing inside a declaration is skipped.", "quantifier": "every declaration of the language, nested to any depth, of any size", "why_tests_cant": "There are about fifty kinds of node, which nest freely; tests exercise a few shapes.", "anchors": ["camkes/parser/stage3.py:lift", "camkes/parser/stage3.py:_lift_component_defn", "camkes/parser/stage3.py:_lift_assembly_defn", "camkes/parser/camkes.g", "camkes/ast/objects.py"]}
{"id": "C83", "title": "Thread settings reach the thread they are written for", "statement": "For every assembly, every component instance and every set of settings a user writes: the instance gets one control thread, as many threads for each connected interface as its connector asks for, and a fault handler if fault handlers are enabled; each of these threads gets the priority, maximum priority, affinity, domain, scheduling context and stack size written for it, or else the one written for all threads of the instance, or else the default of the build, and no thread's setting reaches another thread.", "quantifier": "every assembly, instance, build option and set of settings", "why_tests_cant": "Settings are found by concatenating names, so whether one reaches the wrong thread depends on all interface names and all settings together.", "anchors": ["camkes/templates/macros.py:threads", "camkes/templates/macros.py:set_tcb_properties", "camkes/templates/macros.py:set_sc_properties", "camkes/templates/component.common.c", "docs/index.md"]}
{"id": "C84", "title": "Every thread has its own stack and IPC buffer, fenced by guard pages", "statement": "For every assembly and every stack size: the threads of an instance have different names, so each has its own TCB, stack, IPC buffer and TLS region; the stack has at least the size asked for, rounded up to whole pages, is readable and writable up to the initial stack pointer, and lies between two unmapped pages; so does the IPC buffer.", "quantifier": "every assembly, instance, stack size and page size", "why_tests_cant": "Running off a stack or sharing one shows only as a rare crash, and depends on sizes and names.", "anchors": ["camkes/templates/macros.py:thread_stack", "camkes/templates/macros.py:ipc_buffer", "camkes/runner/Context.py:register_stack_symbol", "camkes/runner/Context.py:register_ipc_symbol", "camkes/templates/component.common.c"]}
{"id": "C85", "title": "Components that share a dataport share exactly its memory, with the configured rights", "statement": "For every assembly, whatever the order in which its parts are generated: every byte of a dataport is backed by memory; a byte of one component's dataport and a byte of another's are the same byte of memory exactly if both dataports belong to the same connection and the bytes have the same offset; and each component's mapping has exactly the rights that its access setting gives, or all of them if it is left unspecified. Sizes and access settings that cannot be honoured are refused.", "quantifier": "every assembly, connection, size, access setting and order of generation", "why_tests_cant": "Sharing depends on object names made from connection names, sizes and indices; a missing or an additional sharing shows only at run time, and a right too many does not show at all.", "anchors": ["camkes/templates/seL4SharedData.template.c", "camkes/templates/seL4DMASharedData.template.c", "camkes/templates/macros.py:get_perm", "camkes/templates/macros.py:get_page_size", "camkes/runner/Context.py:register_shared_variable", "docs/index.md"]}
{"id": "C86", "title": "Every register of a device is mapped", "statement": "For every hardware device, described in the device tree or by settings: the registers it lists are decoded as listed; each gets a mapping in which every byte of the register appears at the same distance from the start of its page, with the configured caching; only pages that the register touches are mapped; the frames used can be mapped at their address; and physical addresses are translated exactly if the whole range lies in the device.", "quantifier": "every device, number of cells, register address and size, and set of page sizes", "why_tests_cant": "Registers at odd addresses or of odd sizes exist on few boards; tests have one board.", "anchors": ["camkes/templates/dtb-query-common.template.c:parse_dtb_node_reg", "camkes/templates/seL4DTBHardware-to.template.c", "camkes/templates/seL4HardwareMMIO.template.c", "camkes/templates/macros.py:next_page_multiple", "camkes/templates/macros.py:align_page_address"]}
{"id": "C87", "title": "A component that makes kernel objects itself is told of every resource it was given", "statement": "For every settings of a component with the simple interface, whatever the other templates allocated before: the capabilities it can enumerate are exactly the ones to its CNode, its address space, the untyped memory, frames, I/O ports, I/O spaces and device memory that the settings ask for, each one once; untyped memory is enumerated with its size, its physical address and whether it is device memory; every slot above the highest one enumerated is free; and the size it reports for its CNode is the size of the CNode. Sizes that are not supported are refused.", "quantifier": "every list of pools, ports, regions, device memory, I/O spaces and interrupts, and every earlier allocation", "why_tests_cant": "The numbers in the generated switch are sums over all the lists of the settings; a test covers one combination.", "anchors": ["camkes/templates/component.simple.c", "camkes/runner/Context.py:alloc_cap", "camkes/templates/arch_helpers.py"]}
{"id": "C88", "title": "A device resource found by address or number is the one asked for", "statement": "For every settings of a component with the simple interface and every request: a frame found by address is of the size asked for and contains the address; I/O ports found cover the range asked for; the I/O space and the interrupt found are the ones of that device and number; boot information found is what the kernel provided, as far as there is room; and a request fails exactly if the settings do not grant it.", "quantifier": "every settings, address, size, range of ports, PCI device, interrupt number, boot information and length", "why_tests_cant": "The address arithmetic and the names under which capabilities are shared depend on all the settings; wrong capabilities show only in use.", "anchors": ["camkes/templates/component.simple.c:simple_camkes_get_frame_cap", "camkes/templates/component.simple.c:simple_camkes_get_IOPort_cap", "camkes/templates/component.simple.c:simple_camkes_get_iospace", "camkes/templates/component.simple.c:simple_camkes_get_irq", "camkes/templates/component.simple.c:camkes_get_extended_bootinfo"]}
{"id": "C89", "title": "Physical addresses, capabilities and cache maintenance of DMA memory are right", "statement": "For every set of DMA pools of a component, its own and those of its DMA connections, and every history of calls: each address in a pool has a frame behind it, the physical address returned for it is that of the byte in that frame, the capability returned is the one to that frame, and maintaining the cache of a buffer in a cached pool maintains exactly the bytes of the buffer. For an address outside of the pools the null address and the null capability are returned. A pool of any size is accepted and rounded up to whole frames; if the settings give a physical address, the pool is contiguous from there.", "quantifier": "every list of pools, every size, page size and placement of them, every address, buffer and history of calls", "why_tests_cant": "The frame is found by arithmetic on addresses that the linker chooses, and physical addresses are remembered across calls; a test sees one layout.", "anchors": ["libsel4camkes/src/dma.c:get_frame_desc", "libsel4camkes/src/dma.c:camkes_dma_get_paddr", "libsel4camkes/src/dma.c:camkes_dma_get_cptr", "libsel4camkes/src/dma.c:dma_cache_op", "camkes/templates/component.common.c", "camkes/templates/seL4DMASharedData.template.c"]}
{"id": "C90", "title": "The statistics of the DMA allocator are what happened", "statement": "For every history of giving memory to the DMA allocator, requests and frees: the size of the heap, the live bytes, the low water mark of free bytes, the numbers of requests, of failures by reason, of defragmentations, of merges and of requests that succeeded after defragmentation, and the average, smallest and largest request are those of the history; and keeping statistics changes nothing else.", "quantifier": "every history of the allocator", "why_tests_cant": "The counters are updated in many branches; whether they agree with the history depends on all of it.", "anchors": ["libsel4camkes/src/dma.c:camkes_dma_stats", "libsel4camkes/src/dma.c:camkes_dma_alloc", "libsel4camkes/src/dma.c:free_region", "libsel4camkes/src/dma.c:defrag", "libsel4camkes/include/camkes/dma.h"]}
{"id": "C91", "title": "Synchronisation objects and pools of a component are its own and are what is configured", "statement": "For every component and every setting of its pools: each mutex, semaphore and binary semaphore that it declares has a kernel object of its own of the right type and begins with the configured value; allocating from the pools gives every thread, endpoint, notification and untyped object that is configured exactly once, with its real size, and then null; threads of the pool are not running and are in the configured domain. Settings that make no sense are refused.", "quantifier": "every set of declared names, every size of every pool, every state of the capability space, every number of allocations", "why_tests_cant": "Objects are found by name, and names of the user and of the templates share one space; the code for a pool exists only if it is configured, so a test compiles a few of the combinations.", "anchors": ["camkes/templates/component.common.c", "camkes/runner/Context.py:alloc_obj", "camkes/runner/Context.py:alloc_cap", "libsel4camkes/src/allocator.c"]}
{"id": "C92", "title": "A component can make exactly the secure monitor calls that are configured", "statement": "For every list of allowed functions: the component has one capability for each of them and none for another function, and asking for the capability of a function returns this one, or null if the function is not in the list.", "quantifier": "every list of functions, every call", "why_tests_cant": "The lookup is a switch that is generated from the list.", "anchors": ["camkes/templates/component.common.c:camkes_get_smc_cap"]}
{"id": "C93", "title": "Boot information reaches the component that asks for it", "statement": "For every device tree, every piece of boot information and every setting: a component that asks for the device tree sees all of its bytes behind the pointer of the device tree interface, one that does not ask gets a null pointer, and a component that asks for other pieces gets a copy of them, up to the room that it has, or -1 if there is no such piece.", "quantifier": "every size and content of the device tree and of the pieces, every room for the copy", "why_tests_cant": "Whether the frames cover the tree depends on its size, and the copy on the length in a header that the loader writes.", "anchors": ["camkes/runner/Context.py:register_fill_frame", "camkes/templates/component.common.c", "camkes/templates/component.simple.c:camkes_get_extended_bootinfo", "libsel4camkes/src/io.c:camkes_io_fdt"]}
{"id": "C94", "title": "A component in CakeML gets calls as its clients make them", "statement": "For every set of clients, every interface with integers and strings and all arguments: when a client calls a method, the component in CakeML runs this method of the interface of this client with these arguments, and the client gets what the method returns.", "quantifier": "every list of clients and interfaces, every method, all values, every earlier content of the buffers", "why_tests_cant": "The format is written three times, in C for the client, in C for the foreign function and in CakeML; whether they agree depends on sizes, values and what was in the buffers before.", "anchors": ["camkes/templates/seL4RPCCall-to.template.cakeml", "camkes/templates/component.environment.start.cakeml", "camkes/templates/rpc-connector.c", "libcamkescakeml/src/ipc.c"]}
{"id": "C95", "title": "A component in CakeML stays within its buffers and refuses what is not a call", "statement": "For every message from every client, and all values that methods return: the component never reads or writes outside of its buffer, refuses messages of unknown clients or with unknown methods, and a message that is too short is refused; a reply contains results only.", "quantifier": "every message, badge, value returned and earlier content of the buffers", "why_tests_cant": "It depends on bytes that another component sends.", "anchors": ["camkes/templates/seL4RPCCall-to.template.cakeml", "libcamkescakeml/src/ipc.c"]}
{"id": "C96", "title": "Files of a component in CakeML", "statement": "For every file: opening reports success exactly if the file was opened and gives a handle of it; reading, writing and closing with this handle act on this file, on exactly the bytes that the caller names, report the result, and stay inside the array of the caller.", "quantifier": "every descriptor, every array, every result of the system", "why_tests_cant": "Handles, numbers and offsets are packed into bytes by hand; a test would use small descriptors only.", "anchors": ["libcamkescakeml/src/io.c"]}
{"id": "C97", "title": "Arguments and start of a component in CakeML", "statement": "For all arguments: the component is told how many there are, how long each is, and gets each in an array of this length. It runs exactly if the initialisation before and after succeeded, in this order, and after a failure does nothing more.", "quantifier": "every list of arguments, every result of the initialisation", "why_tests_cant": "A wrong order shows only when initialisation fails.", "anchors": ["libcamkescakeml/src/args.c", "libcamkescakeml/src/camkes_init.c", "camkes/templates/component.environment.end.cakeml"]}
{"id": "C98", "title": "Host and domain name are those that were set last", "statement": "For every history of calls: asking for system information gives the host name and the domain name that were set last, of the length that was passed, always as strings with a terminator; a null pointer or a name that is too long is refused and changes nothing; nothing outside of the name is read.", "quantifier": "every history of calls with every name and length", "why_tests_cant": "It depends on the earlier calls and on what is behind the name in memory.", "anchors": ["libsel4camkes/src/sys_uname.c"]}
{"id": "C99", "title": "System calls reach the functions that implement them, and the clock tells the time", "statement": "For every platform: after the start each system call that CAmkES implements and the platform has goes to this function, the others to the C library; calls on files that are not sockets go to the C library. The clock tells the time since the start of the counter of the timer component.", "quantifier": "every set of macros, every table before, every counter", "why_tests_cant": "The table depends on macros of the compiler and the platform; the clock must run for weeks.", "anchors": ["libsel4camkes/src/vsyscall.c", "libsel4camkes/src/sys_io.c", "libsel4camkes/src/sys_clock.c"]}
{"id": "C100", "title": "Every reference of a specification becomes the declaration that it means", "statement": "For every specification without forward references: if it is accepted, every reference, at every depth, is replaced by the innermost declaration before it that has its name and a class that fits, or else by one from an assembly before it, and nothing else changes; a qualified reference is followed through members, those of the type for an instance. A specification is accepted only if no place, and no two assemblies, declare two things of one sort under one name. It is refused as unknown exactly if nothing fits. An instance of an assembly can be used by later assemblies.", "quantifier": "every tree of declarations, of any depth, with references everywhere, and every relation between classes", "why_tests_cant": "What a reference means depends on everything declared before it, on all levels, and on references that were replaced before.", "anchors": ["camkes/parser/stage4.py:resolve", "camkes/parser/scope.py", "camkes/ast/base.py:postorder"]}
{"id": "C101", "title": "Queries in settings are replaced by their answers", "statement": "For every assembly and every set of query engines: after queries are resolved no setting is a query, the settings are the same ones in the same order and one that was not a query keeps its value. The value of a query without keys behind it is the whole result with keys that are identifiers; with keys behind it, it is, for each thing found, in order, the value under these keys. An unknown type of query is refused, and is the reason only if nothing answers it. The files that were read are those read before and those of the engines that were used. A query with arguments or without is what was written.", "quantifier": "every list of settings, every engine and every result of it, and every list of keys", "why_tests_cant": "Results of queries come from device trees that are not known when the tool is tested, and keys may be nested to any depth.", "anchors": ["camkes/parser/query.py:resolve", "camkes/parser/query.py:QueryParseStage", "camkes/parser/stage3.py:_lift_query"]}
{"id": "C102", "title": "References may go forward and mean the same declaration, wherever it is written", "statement": "For every specification with forward references allowed: if it is accepted, no reference is left and nothing else changes; a reference with one name is replaced by the innermost declaration around it that has its name and a class that fits, before or after it, else by one from an assembly; a qualified reference by something its names lead to from there, and the instance and the interface of an end of a connection belong together. No object of the result contains itself, and a cycle is a reason for refusal only if there is one. No place, and no two assemblies, declare two things of one sort under one name. A name is called unknown only if nothing visible fits; the tool does not fail otherwise.", "quantifier": "every tree of declarations, of any depth, with references everywhere, in any order, and every relation between classes", "why_tests_cant": "References are replaced while others, which they may depend on, are not yet; which are depends on the order of all declarations.", "anchors": ["camkes/parser/stage4.py:resolve", "camkes/parser/scope.py:ForwardScopingContext", "camkes/ast/base.py:preorder", "camkes/parser/stage4.py:check_acyclic"]}
{"id": "C103", "title": "What the parser delivers is what the specification says, through all stages after name resolution", "statement": "For every specification that is accepted: the delivered instances are exactly those written anywhere in the hierarchy of all assemblies, under their full names and address spaces, without duplicates; two interfaces are on a common connection exactly when written connections, each sharing an end with the next and followed through exports, join them; each is on the side it was written on, with the connector it was written with; every interface is an end at most once, exists on its instance, and every mandatory one is connected; every connection suits its connector; the value of every attribute is the one written for it, followed through references, or the default; no attribute is set to two things. Parsing always ends.", "quantifier": "every list of assemblies, every nesting of components, every set of connections, exports and settings (references with a subscript referring to something set directly)", "why_tests_cant": "Each stage rewrites the whole tree for the next; a slip between two of them only shows for some combination of nesting, exports, shared ends and references.", "anchors": ["camkes/parser/stage6.py:compose_assemblies", "camkes/parser/stage7.py:Parse7", "camkes/parser/stage8.py:resolve", "camkes/parser/stage9.py:Parse9", "camkes/parser/stage10.py:Parse10", "camkes/ast/objects.py:Composition.freeze", "camkes/ast/objects.py:Connection.freeze", "camkes/ast/objects.py:Configuration.freeze", "camkes/parser/parser.py:Parser"]}
{"id": "C104", "title": "The generated formal description of an assembly says what the assembly is", "statement": "The theory generated for a proof about an assembly, read by looking up each name in it, denotes exactly the assembly: its instances with their kind, their own interfaces (not those they export for a component inside) and the contents of the interface types, attributes, its connections with connector and ends, group labels, settings and policy; different event types are different events. No name is defined twice, names are defined before they are mentioned, and there is a description exactly when everything has a usable name and arrays have types that can be described.", "quantifier": "every assembly: any instances, types, interfaces, connections, settings and names", "why_tests_cant": "A name clash, a dropped interface or a wrong reference only shows in a large proof about one particular assembly; tests compare a few generated files.", "anchors": ["camkes/templates/arch-definitions.thy", "camkes/templates/macros.py:isabelle_ident", "camkes/templates/macros.py:isabelle_ADL_ident", "camkes/runner/Context.py:new_context", "camkes/ast/objects.py:Component.interface_is_exported"]}
{"id": "C105", "title": "Components, methods and parameters that may not be declared are refused", "statement": "A component's declaration is accepted exactly if it is not both a control component and a device, a device has no locks, no two of its members have the same name, and in the procedures of its interfaces methods, attributes and parameters have different names that are not reserved words; all keywords of C are reserved. Where it is refused, what the message says is true of the declaration.", "quantifier": "every component: any members, interfaces, methods, parameters and names", "why_tests_cant": "The checks combine over any number of members and nested methods; tests try a few declarations with one fault each.", "anchors": ["camkes/ast/objects.py:Component.freeze", "camkes/ast/objects.py:Method.freeze", "camkes/ast/objects.py:Parameter.freeze", "camkes/ast/objects.py:Attribute.freeze", "camkes/ast/base.py:MapLike.freeze", "camkes/ast/ckeywords.py"]}
{"id": "C106", "title": "Every operation of a component has a C name of its own", "statement": "The header generated for a component that is accepted declares the operations of its members and the common functions, and nothing else; no name is declared twice, none is a keyword of C, and the parameters of every function have different names.", "quantifier": "every component that is accepted and every set of connections", "why_tests_cant": "Whether two names meet depends on all names of a component together; no finite set of components shows that none do.", "anchors": ["camkes/templates/component.template.h", "camkes/ast/objects.py:Component", "camkes/ast/objects.py:Method"]}
{"id": "C107", "title": "Time stamps of a connector are those that were taken", "statement": "After any run in which every time stamp has one of the connector's points, the entry of an iteration and a point is the cycle count at which the point was last passed in that iteration since the last reset, or zero if it was not; resetting clears all entries, and asking for an entry reads the buffer and nothing else. The functions that a component's header declares for this are defined.", "quantifier": "every list of points, every history of time stamps and resets, every iteration and point", "why_tests_cant": "The entry depends on the whole history since the last reset; tests see a few short ones.", "anchors": ["libsel4camkes/include/camkes/timing.h:TIMING_DEFS", "libsel4camkes/include/camkes/timing.h:TIMESTAMP", "camkes/templates/component.template.h"]}
{"id": "C108", "title": "The template linter accepts exactly the templates whose directives are nested", "statement": "The linter passes a template exactly if its starts and ends of blocks, variables and comments take turns and belong together and its directives are nested: every if, for, macro and call is ended by its own end, else and elif stand in a block that has them, and break and continue in a loop. Where it refuses, the message is true, and is given at the first place after which nothing could make the template right, with the number of its line.", "quantifier": "every template and all options", "why_tests_cant": "Templates and nestings are unbounded, and a linter is relied on for the templates its tests did not have.", "anchors": ["tools/jinja_lint.py:low_tokeniser", "tools/jinja_lint.py:high_tokeniser", "tools/jinja_lint.py:main"]}
{"id": "C109", "title": "A server with several clients executes the method that was called and answers with its results", "statement": "A procedure connection with several clients, whose interfaces may have different types, can be built; every call of a client is executed exactly once, in order, on the arguments of the call, and its results come back to that client. Whatever a client sends, only methods of its own type are called, at most one for each message, and a request that cannot be decoded executes nothing and is not answered.", "quantifier": "every list of clients with their types and badges, every implementation, every history of calls and of arbitrary messages", "why_tests_cant": "Dispatch depends on the combination of the types of all clients, their badges and the history of the server; tests have one or two clients of one type.", "anchors": ["camkes/templates/rpc-connector-common-to.c", "camkes/templates/rpc-connector-common-from.c", "include/builtin/std_connector.camkes:seL4RPCCallNoType"]}
{"id": "C110", "title": "An error is reported at its place, with the line marked", "statement": "An error with a place is printed as the place (file, line and column), the source line, carets exactly under the columns of the place, and the message; in colour the same is seen. A syntax error is reported at the place in the user's files from which the line of the offending token comes, with that line and carets under the token. What is not known of the place is left out and the message is never lost.", "quantifier": "every file system, message, place, token and preprocessed text with line directives, with and without colour", "why_tests_cant": "The position of the marks depends on the lengths of the file name, of the numbers and of the line, and the place on all directives before it; tests check single messages.", "anchors": ["camkes/internal/exception.py:_get_line", "camkes/internal/exception.py:CAmkESError", "camkes/parser/exception.py:ParseError", "camkes/ast/location.py:SourceLocation", "camkes/parser/stage1.py:Parse1"]}
{"id": "C111", "title": "Instances that share an address space are linked together, and a direct call reaches the connected procedure", "statement": "Every software instance goes into exactly one ELF image, that of its address space, and the images are loaded with the keys of their address spaces. An instance is linked as an object with relocations exactly if its image has several instances. Symbols of different instances of an image do not clash: other instances can see only methods that are provided over direct connections. A call of a method over a direct connection reaches the procedure of that method in the instance at the other end, no other references are bound between instances, and threads start at the entry point of their instance. A direct connection across address spaces is refused.", "quantifier": "every assembly, order of the set of groups, and symbols of the objects of the instances", "why_tests_cant": "Names are put together from those of connections, instances, interfaces and methods, and symbols are bound by name among all instances of a group; tests link single groups.", "anchors": ["camkes/templates/camkes-gen.cmake:groups", "camkes/templates/camkes-gen.cmake:grouped", "camkes/templates/camkes-gen.cmake:instancelist", "camkes/templates/linker.lds:grouped", "camkes/templates/seL4DirectCall-from.template.c", "camkes/templates/seL4DirectCall-to.template.c", "camkes/templates/component.common.c:_camkes_start"]}
{"id": "C112", "title": "Every instance is built from exactly the generated files that it needs, each made from its own part of the assembly", "statement": "The lists of items, output files and templates that the build gives to the generator always have the same length. For every instance of software, and no other, the build generates the entry code, the header, the linker script, the code of its language, one source for every end of a connection at that instance (and a header if the connector has one), the templates of the user and the optional parts that its settings ask for, and nothing else; each is made with its own template from its own instance or end and address space, and the sources among them are compiled into that instance only. camkes.h includes exactly the headers of the instance. No file is written twice. An instance in an unknown language, and a connector that was declared twice with a template for the side in use, are refused; a connector may be declared in parts.", "quantifier": "every assembly, every set of declared connectors and components, and every build directory", "why_tests_cant": "Files are named after combinations of interface, connector type and number, and lists are passed through CMake scopes; tests build a few fixed assemblies.", "anchors": ["camkes/templates/camkes-gen.cmake:CAmkESGen", "camkes/templates/camkes-gen.cmake:ParentListAppend", "camkes/templates/camkes-gen.cmake:camkes_h_content", "camkes.cmake:DeclareCAmkESConnector", "camkes/runner/__main__.py:main"]}
{"id": "C113", "title": "A change that matters is noticed by the build", "statement": "The parser and the generator write rules for make. While the files that such a rule lists are as they were, and no file appears or disappears, running again gives the same AST or the same generated texts, the same saved state and the same rule, whatever else has changed. So if a second run would give something else, a tool that looks only at the rule sees that some listed file differs. The rule lists exactly the files that were read, each once and in order, and is still the same rule with a relative target after the build has shortened it. Without the preprocessor every listed file exists; every listed template lies in the first directory that has it.", "quantifier": "every specification, import path, file system and later state of it, every preprocessor that reports what it reads, every set of queries, every set of templates that include each other, and every sequence of items", "why_tests_cant": "Which files a run reads depends on imports, includes, queries and templates that ask for other templates; a missed dependency shows only when that file changes between two builds.", "anchors": ["camkes/parser/__main__.py:main", "camkes/parser/stage0.py:CPP", "camkes/parser/stage2.py:Parse2", "camkes/parser/query.py:resolve", "camkes/parser/fdtQueryEngine.py:DtbMatchQuery.get_deps", "camkes/runner/Renderer.py:FileSystemLoaderWithLog", "camkes/runner/Renderer.py:Renderer.get_files_used", "camkes/runner/__main__.py:main", "camkes/templates/camkes-gen.cmake:CAmkESOutputGenCommand"]}
{"id": "C114", "title": "The generated statement of integrity labels every object with its group", "statement": "The theory that states integrity of a built system names, for each kernel object but the root untypeds, one label: that of the group of the instance or connection the object was allocated for. An interrupt and an ASID pool have the label of their object. The theory is generated exactly if each name can be made a constant. The lemmas that it states about labels are true of the very lists it generates: each instance and connection has the label stated, each additional edge of the policy is stated as it is meant, and the control thread, CNode and page directory of each instance carry the label stated. The subjects of the policies that it admits are those for which it states that policies are well formed.", "quantifier": "every assembly with its groups and integrity labels, every set of allocated objects, and every order in which labels are printed", "why_tests_cant": "The lemmas are only checked when someone runs the theorem prover on a generated theory, for one system at a time; which label an object gets depends on groups, configured labels and names together.", "anchors": ["camkes/templates/cdl-refine.thy:obj_labels", "camkes/templates/cdl-refine.thy:irqs", "camkes/templates/cdl-refine.thy:asids", "camkes/templates/cdl-refine.thy:group_label_lookups", "camkes/templates/cdl-refine.thy:policy_extra", "camkes/templates/cdl-refine.thy:tcbs_correct", "camkes/templates/macros.py:isabelle_ident", "camkes/runner/Context.py:object_label_mapping"]}
{"id": "C115", "title": "The formal behaviour of the glue code carries calls as the interface says", "statement": "The theory that describes the system formally defines, for each method, what a caller sends and what a server takes. For every procedure and all values of the declared types, a call enables exactly the part of the server for that method, which stores exactly the values of the parameters that go to it; the answer carries the result and the parameters that come back to the caller, in order; no pattern match is undefined, and the declared signatures have the types of the parameters. The definitions are generated exactly if all types can be described, and no definition has a parameter twice. Each interface of each instance speaks over the connection it is an end of. The initial state has a case for each member of the system, and all it runs is defined.", "quantifier": "every procedure, method, parameter list and values, every assembly and its connections", "why_tests_cant": "The theory is only used by proofs; an index that is off by one or a wrong wrapper shows as an undefined value in a proof about some other system.", "anchors": ["camkes/templates/cimp-base.thy:Call_", "camkes/templates/cimp-base.thy:Recv_", "camkes/templates/cimp-base.thy:show_native_type", "camkes/templates/cimp-base.thy:show_wrapped_type", "camkes/templates/cimp-base.thy:channel", "camkes/templates/cimp-base.thy:gs", "camkes/ast/objects.py:Connection.from_interface"]}
{"id": "C116", "title": "The build is what the build scripts ask for", "statement": "The scripts of an application declare the root of the system, components, extensions of instances, and paths, in any order, and then the build is generated. For every sequence of calls: it is accepted exactly if the root is declared once and before the generation, with one kind of device tree at most, the device tree exists, the defaults are in range, and no path is added after the generation. The parser and the runner get exactly the options of the configuration and the paths and flags that were asked for, in the order of the calls. Each instance is built from what the declarations of its component and its own extensions give, in their order, however the calls for others are mixed in; the last size counts, and a flag is an argument of its own.", "quantifier": "every configuration, every sequence of calls with all their arguments, every component and instance", "why_tests_cant": "A path that is lost or a flag that is glued to another shows only in an application whose scripts come in that order.", "anchors": ["camkes.cmake:DeclareCAmkESRootserver", "camkes.cmake:GenerateCAmkESRootserver", "camkes.cmake:AppendCAmkESComponentTarget", "camkes.cmake:ExtendCAmkESComponentInstance", "camkes.cmake:CAmkESAddImportPath", "camkes.cmake:CAmkESMaybeAddImportPath", "camkes.cmake:CAmkESAddTemplatesPath", "camkes.cmake:CAmkESAddCPPInclude", "camkes.cmake:append_flags", "camkes/templates/camkes-gen.cmake:instance_target"]}
{"id": "C117", "title": "The pre-processor of theories changes only whitespace", "statement": "The generated theories go through a pre-processor that removes superfluous whitespace, steered by directives in comments. For every file and every choice of passes: what is written has exactly the visible characters of the lines that are no directives, in their order, and words stay whole and apart. With the default passes the lines written are exactly these lines with leading blank lines dropped, several blank lines made one, and blank lines dropped where this is asked for. No line ends with whitespace, a locked indentation holds for each line, no space is left inside brackets or before commas. The tool comes to an end, its assertion never fails, and a wrong directive is only reported.", "quantifier": "every file, every value of the directives, every way to wrap text that keeps its characters, every choice of passes", "why_tests_cant": "A lost line or a merged word shows only in a theory where directives and blank lines come in that order, and then as a proof that fails.", "anchors": ["tools/tpp:main", "tools/tpp:RemoveDuplicateNewlines", "tools/tpp:Rstrip", "tools/tpp:DropLeadingBlankLines", "tools/tpp:Condense", "tools/tpp:LockIndent", "tools/tpp:Accumulate", "tools/tpp:CompressBrackets", "tools/tpp:CompressBraces", "tools/tpp:CompressCommas"]}
{"id": "C118", "title": "The debug check of the DMA free list accepts exactly the sound lists", "statement": "With DMA debugging switched on, the allocator checks its free list before and after it changes it. Whatever is in memory, the check comes to an end. It passes exactly if the list comes to an end, each region can hold a node, lies within the address space, virtual and physical, and outside physical frame 0, and no two regions share a byte by virtual or by physical address. If it fails, the assertion that fails names a defect the list has; a list that runs in a circle is reported as such. In every history of the allocator, with memory that was given to it properly, the check passes.", "quantifier": "every content of memory (any graph of next pointers, any sizes and physical addresses), every history of the allocator", "why_tests_cant": "The search for a circle needs two pointers to meet: a wrong bound shows only for circles of a certain length at a certain distance from the head, and then as a check that never ends.", "anchors": ["libsel4camkes/src/dma.c:check_consistency", "libsel4camkes/src/dma.c:extract_paddr", "libsel4camkes/src/dma.c:try_extract_paddr", "libsel4camkes/src/dma.c:save_paddr"]}
{"id": "C119", "title": "Interfaces are registered with the properties they are given", "statement": "A component can register an interface together with an array of properties. With enough memory the registration succeeds, and whoever searches for interfaces of that type later is given a copy of these properties. If memory runs out anywhere, the registration is refused and whatever was allocated for it is freed.", "quantifier": "every array of strings anywhere in memory, every pattern of allocations that fail", "why_tests_cant": "Tests register interfaces without properties; the copy is made by pointer arithmetic whose result depends on where the strings happen to lie.", "anchors": ["libsel4camkes/src/interface_registration.c:camkes_interface_register", "libsel4camkes/src/interface_registration.c:copy_properties_array", "libsel4camkes/src/interface_registration.c:destroy_properties_array"]}
{"id": "C120", "title": "The report of a fault says what happened, where and in which thread", "statement": "When a thread of a component faults, the handler prints a report. Its first line names the kind of fault, the instance and the thread, and shows the values the kernel sent: for a capability fault the program counter, the slot and what the lookup found, for a memory fault the address, the program counter and the status, for an unknown system call its number and all registers of the message, for an exception its number and code. It does so whatever printing does to the message registers in which the fault arrived. From the line one can read back which fault it was.", "quantifier": "every fault, every message of the kernel about it, every architecture, every effect of printing on the IPC buffer", "why_tests_cant": "Printing goes through another component and overwrites the IPC buffer; a register read too late or from the wrong place shows only for one kind of fault on one architecture.", "anchors": ["libsel4camkes/src/fault.c:camkes_show_fault", "libsel4camkes/src/sel4_arch/x86_64/unknown_syscall_fault.c:show_unknown_syscall_fault", "libsel4camkes/src/sel4_arch/ia32/unknown_syscall_fault.c", "libsel4camkes/src/sel4_arch/aarch32/unknown_syscall_fault.c", "libsel4camkes/src/sel4_arch/aarch64/unknown_syscall_fault.c", "libsel4camkes/src/arch/riscv/unknown_syscall_fault.c"]}
{"id": "C121", "title": "The debugger's serial port is set up whatever it was before, and what is printed goes out", "statement": "Setting up the serial port of the debugger ends, and afterwards the port runs at 115200 baud with 8 data bits, no parity and one stop bit, with its outputs on and an interrupt for received data only, whatever state it was in and whatever arrives in the meantime. The queue of the port is used if it has one, and what arrived before is forgotten. Everything printed afterwards is put on the line, in order, with a carriage return before each end of a line, and no byte is lost however slowly the port sends; printing ends as long as the port sends.", "quantifier": "every state of the port and of the program's variables before, every text, every order in which the port sends and receives between the accesses", "why_tests_cant": "The registers share addresses depending on a bit of another register, and a byte written too early vanishes without a trace; a test sees one port with one timing.", "anchors": ["libsel4camkes/src/sel4_arch/ia32/gdb_server/serial.c:serial_init", "libsel4camkes/src/sel4_arch/ia32/gdb_server/serial.c:clear_iir", "libsel4camkes/src/sel4_arch/ia32/gdb_server/serial.c:serial_output_via_fifo", "libsel4camkes/src/sel4_arch/ia32/gdb_server/serial.c:serial_putchar"]}
{"id": "C122", "title": "Each interrupt of a device of the device tree reaches its own handler", "statement": "A component that takes a device from the device tree gets all interrupts of the device through one notification. The i-th interrupt of the device has a badge bit of its own and a handler for its own number. However the interrupts are raised, several at once or while others are being handled, each time that one is raised is followed by a call of the handler of this interrupt with its number, never for nothing and never for another interrupt; acknowledging an interrupt enables this one and no other, whether the handler does so before it returns or later.", "quantifier": "every node of a device tree with interrupts, every number of interrupts, every order of raising, running and acknowledging", "why_tests_cant": "Bits of several interrupts add up in one word, and interrupts arrive while others are handled; a test raises one interrupt at a time, and handlers in tests acknowledge at once.", "anchors": ["camkes/templates/seL4DTBHardware-to.template.c", "camkes/templates/macros.py:parse_dtb_node_interrupts"]}
{"id": "C123", "title": "A component that makes kernel objects is told where its memory is", "statement": "When a component that makes kernel objects itself first asks for its resources, it is told the true physical address of each of its untyped memories that holds at least a page. Finding this out uses up nothing: all of the memory is as free afterwards as before. Asking again changes nothing, whatever has been made in the memories by then.", "quantifier": "every list of memories with any sizes and addresses, every behaviour of the error handler, every later state of the memories", "why_tests_cant": "The address is found by making a page in each memory through one shared slot, so that one failure affects the others; a test has memories at the usual addresses.", "anchors": ["camkes/templates/component.simple.c:make_frame_get_paddr", "camkes/templates/component.simple.c:camkes_make_simple"]}
{"id": "C124", "title": "Both computations of the size of a CNode agree and are right", "statement": "For every last slot that a CNode can have, the size computed where the specification is written and the size computed where it is checked are the same, and are the smallest size of at least two bits that has all slots; the tool that compares them finds no difference.", "quantifier": "every slot number", "why_tests_cant": "The tool tries 2^28 numbers; that a size is the smallest sufficient one for all of them is not tested, nor what happens beyond.", "anchors": ["tools/cnode-size-playground.c:calculate_cnode_size", "tools/cnode-size-playground.c:cnode_size_bits", "tools/cnode-size-playground.c:main"]}
{"id": "C125", "title": "The C code generated for remote procedure calls is well typed", "statement": "For every method of an interface, the function that a caller gets, the function that a server runs and the header of the component declare the same function, with the parameters and the result that are promised for the method. In the generated code every name is declared once, every variable is initialised with a value of its type, and every call has as many arguments as the called function has parameters, each of the parameter's type. For every parameter the sender puts a piece of its type into the message and the receiver takes a piece of that type out, in the same order.", "quantifier": "every method with any number of parameters of any type, direction and name, and with any result", "why_tests_cant": "The text of parameter and argument lists is put together in eleven places by case distinction over direction, array, type and position; a test compiles some methods.", "anchors": ["camkes/templates/helpers/marshal.c:show_input_parameter", "camkes/templates/helpers/marshal.c:make_marshal_input_symbols", "camkes/templates/helpers/marshal.c:call_unmarshal_output", "camkes/templates/rpc-connector-common-from.c", "camkes/templates/rpc-connector-common-to.c", "camkes/templates/component.template.h"]}
{"id": "C126", "title": "A connection gives each end the capabilities of its role, and nothing else", "statement": "In whatever order the ends of the connections of an assembly are rendered, the capability that the code of a sender uses and the one at which the receiver waits are to the same object, the sender may send and the receiver may receive. Every receiver has a channel of its own. Two components hold capabilities to the same object only if a connection joins them. A component without a receiving end cannot receive what is sent over a connection, one without a sending end cannot send over it, and no connection lets components transfer capabilities. Objects that an end needs for itself are held by no other component. Each client of a server calls with a badge of its own.", "quantifier": "all assemblies of connections of the RPC, notification, queue, bind and native connectors, all ways in which instances share address spaces, all configured badges and all orders of rendering", "why_tests_cant": "Capabilities are shared by name between templates that are rendered separately; what a component ends up with depends on all other ends with the same names and on the order. Tests look at some systems that work, not at authority that nobody uses.", "anchors": ["camkes/templates/rpc-connector.c:establish_from_rpc", "camkes/templates/rpc-connector.c:establish_recv_rpc", "camkes/templates/seL4Notification-from.template.c", "camkes/templates/seL4Notification-to.template.c", "camkes/templates/seL4NotificationQueue-from.template.c", "camkes/templates/seL4NotificationBind-from.template.c", "camkes/templates/seL4NotificationNative-to.template.c", "camkes/runner/Context.py:alloc_cap"]}
{"id": "C127", "title": "The handler of a fault is told which thread it was", "statement": "With a fault handler in the component, a fault of any other thread of the component reaches the endpoint that the handler waits at, with a badge for which the handler shows the name of that thread. With a connection to the debugger, a fault of any thread of the component reaches the debugger with the number of a slot in which the component holds that thread's TCB, so that the debugger's later requests concern this thread; the thread that serves those requests is the exception, and its faults reach the handler of memory faults.", "quantifier": "all sets of threads that an assembly gives to a component, all earlier allocations in its capability space, with and without fault handlers, and all names of instances and connections", "why_tests_cant": "Faults are rare and each test provokes one of them, in one thread. That the badge, the slot and the name in the generated switch agree for all threads depends on names of capabilities and on what other templates have allocated.", "anchors": ["camkes/templates/component.common.c", "camkes/templates/seL4GDB-from.template.c", "camkes/templates/seL4GDB-to.template.c", "camkes/templates/seL4GDBMem-from.template.c", "camkes/templates/seL4GDBMem-to.template.c", "camkes/templates/macros.py:threads"]}
{"id": "C128", "title": "The checker of dependencies reports what is missing", "statement": "The checker's report has a section for each component that it was asked about (all of them by default, and in the order of their names, however the question was put), with one line for each dependency that says whether it is there, and otherwise why not. A section says that the component cannot be built exactly if one of its dependencies is missing; the status is zero exactly if none is missing from any section; and exactly the optional programs that are missing are suggested, without an influence on the status.", "quantifier": "all tables of components and dependencies, all choices of components, and all answers of the machine: installed programs and libraries, outcomes of imports, attributes of modules, and texts that pylint prints about its version", "why_tests_cant": "A test runs on one machine, where the dependencies that it needs are there. That a missing dependency of each class is noticed and ends in the status, and that versions are compared rightly, concerns machines on which no test runs.", "anchors": ["tools/check_deps.py:main", "tools/check_deps.py:Pylint", "tools/check_deps.py:PythonModuleWith", "tools/check_deps.py:Or"]}
{"id": "C129", "title": "Both ends of a queue in shared memory see the same queue", "statement": "A virtqueue driver or device, and a sender or receiver of a message queue, is set up exactly from the channel that is registered with its number and for its role; otherwise an error is returned and nothing is set up. Whatever the addresses at which the two components see the shared memory, both ends find each ring at the same distance from its beginning, one after the other without overlap; a buffer that is allocated is behind the rings, inside of the memory and not in use, and the offset that is sent for it leads the other end to the same byte. An end of a message queue stays connected to the channel of its first successful initialisation: later ones change nothing, messages that are too long for the channel are refused, and the functions registered for the channel are called exactly when a message was put in the queue, or when the receiver polls or waits. An end that is not connected calls nothing and answers with an error.", "quantifier": "all sizes of rings and queues, addresses and sizes of memory, tables of channels, histories of initialisations, messages and requests with one end, histories of allocations, and outcomes of the heap and of the rings", "why_tests_cant": "A test sets up one queue at one pair of addresses, with memory that is large enough, and then uses it; that nothing depends on the addresses, and what initialisations in other orders do, it does not see.", "anchors": ["libsel4camkes/src/virtqueue_common.c:camkes_virtqueue_driver_init_common", "libsel4camkes/src/virtqueue_common.c:camkes_virtqueue_device_init_common", "libsel4camkes/src/virtqueue.c:camkes_virtqueue_driver_init_with_recv", "libsel4camkes/src/msgqueue.c:camkes_msgqueue_sender_init", "libsel4camkes/src/msgqueue.c:camkes_msgqueue_poll"]}
{"id": "C130", "title": "The bookkeeping of the DMA allocator stays intact in the memory it manages", "statement": "The DMA allocator keeps its list of free memory in the free memory itself. In every history of giving it pools, allocating, freeing, and writing anything to live allocations and to memory that is not the allocator's, from any initial contents of the memory: following the pointers of the list ends, and the blocks found are exactly the memory that was given and is not live, every byte once; every allocation and every free ends, and no assertion in them is false; what is allocated is aligned, physically contiguous, part of what was given and apart from everything live; and the allocator changes no byte of a live allocation and none outside of the memory that it was given. A pool that is not suitable is refused and nothing is changed.", "quantifier": "all histories of pools, allocations, frees and writes of the user, contents of the memory, sizes, alignments, physical addresses outside of the first page, and layouts of a node", "why_tests_cant": "A test runs some sequences of calls on fresh memory. Whether pointers that are left behind by merging of blocks, or uninitialised fields, ever damage the list or a live block depends on the whole history.", "anchors": ["libsel4camkes/src/dma.c:remove_node", "libsel4camkes/src/dma.c:replace_node", "libsel4camkes/src/dma.c:defrag", "libsel4camkes/src/dma.c:try_alloc_from_free_region", "libsel4camkes/src/dma.c:camkes_dma_alloc", "libsel4camkes/src/dma.c:camkes_dma_free"]}
{"id": "C131", "title": "The wrapper of the static analyser hides only the warnings that the source marks", "statement": "If the analyser cannot be run or fails, the wrapper passes on everything that it said, and a status that is not zero. Otherwise the wrapper's status is 0 and it passes on the lines of the analyser, unchanged and in their order, except warnings for which the line of the source that they are about carries a comment /* goanna: suppress=... */ that lists the check, as the documentation describes. Lines that are not warnings, warnings about files that cannot be opened or lines that do not exist, and warnings of checks that are not listed are never hidden.", "quantifier": "all outputs and exit codes of the analyser, and all contents of the source files", "why_tests_cant": "A test tries some warnings. Which part of a line a regular expression takes for the file, the line and the check, and which comment of a line it finds, has to be right for every text.", "anchors": ["tools/goanna_wrapper.py:main", "tools/goanna_wrapper.py:execute"]}
{"id": "C132", "title": "The I/O operations of a component are set up completely or the caller is told why not", "statement": "Setting up the structure of I/O operations returns 0 exactly if it gets an address and the memory for its records, and then every operation of the structure can be used: memory, mapping, ports, DMA, device tree (the one behind the header, or none), interrupts and interfaces. Otherwise it returns the code of what failed and keeps no memory. Every set-up gets records of its own: in debug builds, unmapping through a structure logs an error exactly if no mapping of that address through that structure is left, whatever happens through other structures; in other builds nothing is logged.", "quantifier": "all contents of the structures before, all patterns in which allocations fail, and all histories of set-ups, mappings and unmappings through any number of structures", "why_tests_cant": "A test sets up one structure while there is memory. That records of several structures never mix, and what is left behind when the n-th allocation fails, needs all histories and failure points.", "anchors": ["libsel4camkes/src/io.c:camkes_io_ops", "libsel4camkes/src/io.c:camkes_io_mapper", "libsel4camkes/src/io.c:camkes_io_fdt", "libsel4camkes/src/io.c:camkes_ps_malloc_ops", "libsel4camkes/src/interface_registration.c:camkes_interface_registration_ops", "libsel4camkes/src/dma.c:camkes_dma_manager", "libsel4camkes/src/irq.c:camkes_irq_ops"]}
{"id": "C133", "title": "An import leads to the file that its text names, however files are spelled", "statement": "A quoted import is searched from the directory that has the importing file, whatever path that file was named by and wherever the parser runs; a text that begins with a slash counts from the root, and input that is no file from the directory of the parser. An import in angle brackets counts from the directories of the import path. The code goes to exactly the file to which the operating system would go along the written path, and two spellings of one file (with '.', '..' or repeated slashes) are one file: its statements come into the result once.", "quantifier": "all path texts, all trees of directories, all working directories and all sets of files", "why_tests_cant": "A test imports a few files with plain names. That join, dirname and normalisation together follow the operating system, and identify exactly the spellings of one place, is a statement about all texts and all directory trees.", "anchors": ["camkes/parser/stage2.py:Parse2._resolve"]}
{"id": "C134", "title": "To the program that it runs, an instance is a process with threads of its own", "statement": "Every instance has a process number of its own, different from that of its parent. Each of its threads has a number and a name of its own, starts with the initial values of its thread-local variables and sees only its own stores in them, whatever other threads do. A call of exit ends the instance. What threads print reaches the function for output that is set, or else the debug console: every byte once, in the order of the thread, and a call says how many bytes it printed. The control thread is started with its identifier and the true layout of its thread-local storage.", "quantifier": "all compositions, all lists of threads, all layouts and sizes of thread-local storage, all schedules of the threads, all buffers and all identifiers", "why_tests_cant": "A test starts an assembly and looks at a few numbers and lines of output. That storage is never shared, that numbers never coincide and that no output is lost or reordered is a statement about all lists of threads and all interleavings.", "anchors": ["camkes/templates/component.common.c:camkes_tls_init", "camkes/templates/component.common.c:write_buf", "libsel4camkes/src/sys_exit.c", "libsel4camkes/src/start.c:camkes_start_control"]}
{"id": "C135", "title": "A server in CakeML answers each of its clients, whatever its methods wait for", "statement": "A server of an RPC interface that is written in CakeML behaves to its clients as the same server in C: the capabilities that it hands to the C library as bytes arrive unchanged on 32-bit and on 64-bit machines, the reply capability is saved before a method waits, and each answer returns the call of the client whose request is being handled, once and in the order of the requests. A component that cannot block answers directly.", "quantifier": "all endpoints, slots and CNodes that fit a word, both word sizes, all sequences of requests, waits, failures and answers, and all contents of the message buffer", "why_tests_cant": "A test runs one server with a few requests and small numbers of slots. That no sequence of waits and answers loses a client or answers the wrong one, and that no slot number is mangled on its way through an array, ranges over all histories and all words.", "anchors": ["camkes/templates/rpc-connector.c:reply_recv", "camkes/templates/component.environment.start.cakeml:clear_tls_reply_cap_in_tcb", "libcamkescakeml/src/ipc.c:fficlear_tls_reply_cap_in_tcb", "libcamkescakeml/src/ipc.c:ffiset_tls_cnode_cap"]}
{"id": "C136", "title": "The tools say what is wrong, as loudly as they were asked to, and their checks change nothing else", "statement": "Of several flags for verbosity the last counts, and it alone decides which messages are seen. If a specification or a template has an error, the tool fails, and says each line of the error unless it was asked to be silent; flags and warnings never change the exit code or the files. Verbose output warns about exactly those attributes whose value does not fit their type. The base name of theories must be an identifier, and a theory is written only to a file with its name. Without a UTF-8 locale nothing is generated.", "quantifier": "all lists of flags, all messages, errors and tracebacks, all instances, attributes and values, all names and paths, all sequences of items", "why_tests_cant": "A test looks at the messages of a few runs. Which messages are seen for every combination of flags, and which names and values are accepted or warned about, ranges over all of them.", "anchors": ["camkes/internal/log.py:set_verbosity", "camkes/runner/__main__.py:main", "camkes/runner/__main__.py:_die", "camkes/parser/__main__.py:main", "camkes/templates/macros.py:check_isabelle_outfile"]}
{"id": "C137", "title": "A server uses the system calls of its kernel, and on a real-time kernel no wait loses a client", "statement": "A server that was generated for a kind of kernel compiles with that kernel's library, and one that was generated for the other kind does not. On a real-time kernel, whatever its methods wait for, it returns the call of each client that it answers, once and in order, and of no other; on another kernel this holds without further care of components that cannot block. Each request is taken once. A passive server says once that it is ready, when it is already waiting for its first request.", "quantifier": "both kinds of kernels, active and passive servers, all names of capabilities and variables, all sequences of requests, waits, errors and answers", "why_tests_cant": "A test runs one assembly on one kernel. That no sequence of waits, errors and answers loses or mixes up a client, for any names the generator chooses, ranges over all histories.", "anchors": ["camkes/runner/Context.py:generate_seL4_Recv", "camkes/runner/Context.py:generate_seL4_SignalRecv", "camkes/runner/Context.py:generate_seL4_ReplyRecv", "camkes/templates/rpc-connector.c:recv_first_rpc", "camkes/templates/rpc-connector.c:reply_recv"]}
{"id": "C138", "title": "A dynamic component is told the truth about its initial capabilities", "statement": "A thread that makes the component's description of its environment is told the capabilities of its own CNode, address space and thread, and on real-time kernels its scheduling context, and gets no capability for any other question. The I/O spaces are counted, and asking by number gives each one's capability once and nothing beyond the count. Scheduling control is given for exactly the core that was configured. Assigning an address space identifier does what the kernel does with the configured pool, and is an error without one.", "quantifier": "all configurations of the component, all architectures, all sequences of threads that make a description, all numbers asked for including negative ones, all results of the kernel", "why_tests_cant": "A test asks a few questions of one component. That no number, core or order of threads gives a wrong capability ranges over all configurations and histories.", "anchors": ["camkes/templates/component.simple.c:simple_camkes_init_cap", "camkes/templates/component.simple.c:simple_camkes_get_iospace_nth_cap", "camkes/templates/component.simple.c:simple_camkes_set_ASID", "camkes/templates/component.simple.c:camkes_simple_sched_ctrl", "camkes/templates/component.simple.c:camkes_make_simple"]}
{"id": "C139", "title": "Every end of a standard connection gets the code of its connector", "statement": "In an assembly that uses the connectors which the tool declares, the build of every instance goes through: each of its files is made from a template that the tool has, and for each end of a connection exactly one file is made, from the only template for that connector and side, in CakeML for servers in CakeML if there is one. What a user declares for connectors of their own changes nothing of this.", "quantifier": "all assemblies of standard connectors with any number of instances, connections and ends, instances in C and CakeML, all further declarations of connectors", "why_tests_cant": "A test builds some assemblies. That no combination of connectors, sides and languages asks for a template that is missing or that belongs to another connector, whatever users add, ranges over all assemblies and declarations.", "anchors": ["camkes/templates/templates.cmake:DeclareCAmkESConnector", "include/builtin/std_connector.camkes", "camkes/templates/camkes-gen.cmake:CAmkESGen", "camkes.cmake:DeclareCAmkESConnector"]}
{"id": "C140", "title": "Settings of cores, heap and capability space take effect or are refused", "statement": "If the build of an instance goes through, its threads run on cores that the machine has, on the one that was set for the instance or for the thread, and the component is told the one of the instance. Its heap has the size that was set, or the default, and the allocator is told that size; a heap that cannot be given is refused. Its CNode has the size that was set for its address space, and every instance there is told that size. Emitting an event signals each consumer that is connected once, and nothing if there is none.", "quantifier": "all configurations of instances and groups, all numbers of cores, all threads, any number of instances in an address space", "why_tests_cant": "A test tries some values. That no value, negative or too large, for an instance or for one thread, alone or in a group, is taken silently and then ignored ranges over all configurations.", "anchors": ["camkes/templates/component.common.c:get_instance_affinity", "camkes/templates/macros.py:maybe_set_property_from_configuration", "camkes/templates/component.simple.c:simple_camkes_cnode_size", "camkes/templates/seL4Notification-from.template.c"]}
{"id": "C141", "title": "Theories for verification are made once, under the names by which they refer to each other", "statement": "Every file that the build asks the tool for is made by exactly one run of it, the theories by one that loads the final objects. The theories of the generated session are exactly those that the build makes, each in the file in which Isabelle looks for it; the proof imports the others. The name that is made from the name of the assembly's file is accepted by the tool and by the templates.", "quantifier": "all paths of assembly files, all build directories, all lists of files of the instances, with and without verification", "why_tests_cant": "A test builds some applications. That any name of a file, with dashes, dots, digits or other characters, gives names that all parts of the build agree on ranges over all paths.", "anchors": ["camkes/templates/camkes-gen.cmake:CAmkESGen", "camkes/templates/camkes-gen.cmake:CAmkESOutputGenCommand", "camkes/templates/camkes-gen.cmake:VER_BASE_NAME", "camkes/templates/root.thy", "camkes/templates/cdl-refine.thy", "camkes/templates/macros.py:check_isabelle_outfile"]}
{"id": "C142", "title": "A struct that is written in place gets a name of its own", "statement": "Every attribute has the type that was written: one that names a declared struct has the fields of the declaration, one whose struct is written in place has those fields, under a name that the tool makes up. No two different structs in a specification have the same name, so the header of a component defines each struct with its own fields.", "quantifier": "all sequences of declarations of structs and attributes, over any number of files, with structs in structs of any depth", "why_tests_cant": "A test has some structs. That no nesting and no order of declarations makes two structs share a name, in which case the header would silently leave one out, ranges over all specifications.", "anchors": ["camkes/parser/stage3.py:_lift_struct_decl", "camkes/parser/stage3.py:_lift_struct_defn", "camkes/parser/stage3.py:_lift_struct_ref", "camkes/ast/objects.py:Struct", "camkes/templates/macros.py:print_type_definitions"]}
{"id": "C143", "title": "The table of C keywords has exactly the keywords that could be identifiers", "statement": "The program that makes the table of keywords, with which names in a specification are checked, prints exactly the words that the compiler's file has for the chosen environment and that could be identifiers, in their order, as a list in Python with lines of less than 80 characters.", "quantifier": "all contents of the compiler's file, with words of up to 72 characters", "why_tests_cant": "A test runs the program with one version of the compiler. That no order and no lengths of words lose one at the end of a line or make a line too long ranges over all lists.", "anchors": ["tools/ckeywords.c:main", "tools/ckeywords.c:KEYWORD_", "camkes/ast/ckeywords.py:C_KEYWORDS"]}
{"id": "C144", "title": "The check of leading assertions finds type checks of the wrong thing", "statement": "If the check of a source file says nothing, every type check at the beginning of a function, alone or after a comparison with None, has two arguments and is about an argument of the function or an attribute of self. It says nothing about files in which this is so.", "quantifier": "all source files with any number of functions, arguments and assertions", "why_tests_cant": "A test has some sources. That no combination of assertions slips through, and none that is right is refused, ranges over all functions.", "anchors": ["tools/camkes_lint.py:main", "camkes/ast/tests/lintsource.py:lint"]}
{"id": "C145", "title": "In a method, the identity of the sender is that of the caller", "statement": "While the implementation of a method handles a call, the function for the identity of the sender of its interface gives the badge of the client that made this call, in whatever order clients call, however the threads of the interfaces of the component take turns and whether replies are sent at once or later. Different clients are given different identities, and 0 means that there was no call yet.", "quantifier": "all configurations of clients, badges and kinds of interfaces, and all histories of calls, replies and returns", "why_tests_cant": "A test has some clients that call in some order. That no interleaving leaves a stale or another client's identity in the variable ranges over all histories.", "anchors": ["camkes/templates/rpc-connector.c:_make_get_sender_id_symbol", "camkes/templates/rpc-connector.c:recv_first_rpc", "camkes/templates/rpc-connector.c:reply_recv", "camkes/templates/rpc-connector.c:allocate_badges"]}
