# Formal model of seL4/camkes-tool in Lean 4

## Layout

* `lean/Verif/<Area>/Model.lean` – the model: total functions (and, for concurrent code, small-step machines) that mirror the
  code in `/repo` branch by branch. Every definition cites file and lines. Exceptions are values, loops are structural recursion,
  folds or carry explicit fuel.
* `lean/Verif/<Area>/Spec.lean` – small specification vocabulary, independent of the model's helpers.
* `lean/Verif/<Area>/{Lemmas,Safety,Live,Stuck,Aux}.lean` – helper lemmas where they are too long to sit with the theorems.
* `lean/Verif/<Area>/Props.lean` – the property theorems, with non-vacuity `example`s beside them.
* `properties.jsonl` – the properties; `MANIFEST.json` – property → theorem names and status; `AXIOMS.md` – the axioms of each theorem.
* `seeded/LOG.jsonl` – mutation experiments: edits made to a scratch copy of the model and the theorems that failed.

Conventions: a theorem that proves only part of a property has the suffix `_partial`. Where the code violates a property, the
negation is proved with a concrete witness; its comment begins with “Disagreement with Cxx”. A property is `partial` in the manifest as soon as
the code violates some of it, however much of the rest is proved.

## Trusted base

* Lean 4.33.0's kernel. No axioms are added; no `sorry`, `native_decide` or `bv_decide`. Every theorem depends on at most
  `propext`, `Classical.choice`, `Quot.sound`; `AXIOMS.md` lists them theorem by theorem.
* Mathlib (a few modules, imported one at a time), which is checked by the same kernel.
* The reading of the Python, C and template sources into the model. Nothing was executed: the templates are read for the C code that they
  generate, with the configuration as a parameter.
* The specifications (`Spec.lean` and the statements in `Props.lean`).
* Code outside the repository, by contract. The contracts are hypotheses or parameters of the theorems, never axioms; they are listed per area below.

## Per-property plan

| id | property | model | how it is proved | status |
|----|----------|-------|------------------|--------|
| C01 | Imports are spliced depth-first and each file at most once | `Imports` | refinement of the work-list loop to a recursive depth-first specification, for every finite file system | partial |
| C02 | Import resolution terminates and fails only on a missing file | `Imports` | measure on unread files; exact failure condition | proved |
| C03 | Numeric constant expressions evaluate left to right within a precedence level | `NumExpr` | fold law by induction over operator chains | proved |
| C04 | Logical operators in constant expressions yield 0 or 1 | `NumExpr` | all operators; negation witness for `&&` and `||` | partial |
| C05 | Struct/dict literals: the last binding of a key wins and no other key appears | `Lift` | induction over pairs | proved |
| C06 | Connector declarations keep direction and multiplicity | `Lift` | case analysis over all declarations | proved |
| C07 | Reported source locations honour preprocessor line directives | `Location` | induction over lines | proved |
| C08 | Names resolve to the innermost visible declaration and duplicates are rejected | `Scope` | invariants over histories of scope operations | proved |
| C09 | Closing a scope restores exactly the previous bindings | `Scope` | the same | proved |
| C10 | Self-containing components are rejected and only those | `Acyclic` | soundness and completeness of the search with respect to the transitive closure | proved |
| C11 | Flattening groups preserves instances and gives each group one address space | `Groups` | induction over groups; negation for names of anonymous groups | partial |
| C12 | Composing several assemblies keeps every declaration | `Compose` | induction over assemblies | proved |
| C13 | Flattening the hierarchy gives each instance its unique dotted path name | `Hierarchy` | induction over the depth of the hierarchy, refinement to enumeration of paths | proved |
| C14 | Exported interfaces are replaced by the interface they stand for | `Hierarchy` | alias chasing, induction over depth | proved |
| C15 | Settings of nested compositions are qualified by the full instance path | `Hierarchy` | the same | proved |
| C16 | Attribute references resolve to the value at the end of the chain | `AttrRef` | refinement to the semantics of chains; negation for order dependence | partial |
| C17 | Circular attribute references are rejected | `AttrRef` | characterisation of failure by cycles | proved |
| C18 | Connections sharing an end are merged into one multi-way connection | `Consolidate` | soundness for every order; completeness for star-shaped sharing; negation otherwise | partial |
| C19 | Freezing rejects duplicate entity names and then gives a faithful name lookup | `Freeze` | characterisation of acceptance | proved |
| C20 | Every mandatory interface is connected exactly once in an accepted assembly | `Freeze` | characterisation of acceptance | proved |
| C21 | Configuration lookup returns the setting, else the attribute default | `Freeze` | case analysis, for every assembly | proved |
| C22 | Accepted connections join compatible ends only | `Freeze` | characterisation of acceptance | proved |
| C23 | Frozen AST objects are immutable and freezing is idempotent | `Frozen` | heap of objects, histories of freezes and assignments | partial |
| C24 | Settings accepted by type checking have a value of the declared attribute type | `TypeCheck` | mutual induction over types and values | proved |
| C25 | AST traversal visits every node, children first (post-order) or parents first (pre-order) | `Traversal` | induction over trees | proved |
| C26 | Equal AST objects are interchangeable as dictionary keys | `Hash` | algebra of equality and hashing; negation for dictionaries | partial |
| C27 | Device-tree cell packing and unpacking are inverse | `Fdt` | round trip by induction over words | partial |
| C28 | Device addresses are translated through every bus ranges property | `Fdt` | interval arithmetic, induction over the path | proved |
| C29 | Device-tree queries return only nodes satisfying every stated condition | `FdtQuery` | soundness and completeness of filters; negation for a path that matches nothing | partial |
| C30 | Query result keys become C identifiers without losing values | `QueryKeys` | induction over entries; negation for collisions | partial |
| C31 | Rounding helpers return the nearest multiple | `Macros` | arithmetic | proved |
| C32 | Untyped decomposition tiles an address range exactly | `Macros` | tiling invariant | proved |
| C33 | The integer type chosen for method indices can hold every index | `Macros` | arithmetic | proved |
| C34 | Notification badges on the global endpoint are distinguishable | `Badges` | arithmetic on bits; negation for overlapping masks | partial |
| C35 | RPC badges identify clients uniquely | `Badges` | invariant of the allocation loop | partial |
| C36 | Virtqueue ids are unique and the search always succeeds | `VirtqueueIds` | pigeonhole | proved |
| C37 | Integrity labels are a function of the group equivalence | `Labels` | fixed-point characterisation of label assignment | partial |
| C38 | Object allocation by name is idempotent and rights only grow | `Context` | refinement to maps over operation histories | partial |
| C39 | Generated symbols never collide | `Context` | injectivity of symbol construction | partial |
| C40 | Shared-variable frames cover the variable exactly and agree between users | `Context` | arithmetic | partial |
| C41 | The runner rejects mismatched output/item/template argument lists | `Runner` | exact condition of acceptance; witnesses | partial |
| C42 | Dependency extraction from preprocessor make rules returns exactly the prerequisites | `Makefile` | round trip of printing and reading | proved |
| C43 | DMA allocations are aligned, inside the pool and never overlap live memory | `Dma` | invariant over allocation histories | proved |
| C44 | Defragmenting the DMA free list preserves the set of free bytes | `Dma` | pointer-level defragmentation, set of free bytes | proved |
| C45 | Cached and uncached DMA memory are never confused | `Dma` | negation for unwritten flag; partial invariant | partial |
| C46 | Notification connector: no event is lost or delivered twice | `Notification` | labelled transition system, invariant over all interleavings | proved |
| C47 | RPC marshalling round-trips | `Marshal` | round trip over byte lists with wrap-around arithmetic | proved |
| C48 | RPC unmarshalling never reads beyond the message | `Marshal` | containment; negation for multiplication overflow | partial |
| C49 | The capability pool never hands out a capability twice | `CapAlloc` | history invariant | proved |
| C50 | I/O mapping returns memory that backs the whole requested physical range | `IoMap` | scan of the frame table; witnesses | partial |
| C51 | Registered driver interfaces are found again; duplicates are refused | `IfaceReg` | exact condition; negation | partial |
| C52 | Interrupts are matched to the entry with the same description and dispatched to the right handler | `Irq` | history invariant; witness | partial |
| C53 | Virtqueue buffers handed out are distinct and inside the shared region | `VqAlloc` | invariant of the free list in memory | partial |
| C54 | Reply capabilities are saved before they can be overwritten | `ReplyCap` | history invariant with the kernel's reply capability | proved |
| C55 | Device-tree interrupt specifiers decode to the interrupts they describe | `Interrupts` | induction over specifiers; witnesses | partial |
| C56 | The RPC server answers every request exactly once and to the client that sent it | `ReplyCap` | server loop with lazy saving, history invariant | partial |
| C57 | Messages sent through a virtqueue arrive unchanged | `VqMsg` | contents invariant over histories of both sides | partial |
| C58 | Threads that share the buffer of an RPC connection do not disturb each other | `ClientLock` | small-step machine, mutual exclusion, progress measure | partial |
| C59 | A registered virtqueue channel is found again by its id, role and name | `VqChan` | history invariant; witnesses | partial |
| C60 | Each item of the command line names exactly one entity, and files are written in order | `Runner` | exact condition of acceptance; order of writes | partial |
| C61 | Allocation of DMA memory succeeds whenever there is enough contiguous free memory | `Dma` | completeness of the scan; witnesses | partial |
| C62 | Initialisation functions run in order and every interface gets started | `Startup` | small-step machine with arbitrary schedule; progress by a measure | partial |
| C63 | A wrapped dataport pointer denotes the same byte in every component that shares the dataport | `DPtr` | arithmetic of offsets over layouts; witnesses | partial |
| C64 | The memory map that is printed for a fault is complete, ordered and marks the fault | `FaultMap` | merge of sorted regions, induction | partial |
| C65 | Every device that has a driver is initialised exactly once, drivers that defer are called again | `Drivers` | pointer-level linked lists, oracle drivers, rounds | partial |
| C66 | A range of memory is accepted by madvise, mincore, mlock and munlock exactly if it is mapped | `Vma` | interval cover, exact table of the address space | partial |
| C67 | select waits for the sockets of the descriptors it is given and reports exactly those that are ready | `Select` | in-place translation of sets, induction | partial |
| C68 | System calls on a descriptor reach its socket with the data of the caller | `Sockets` | history invariant of the descriptor table | partial |
| C69 | Cache maintenance of device memory works on exactly the bytes that are asked for | `Flush` | loop invariant over pages; kernel contract | partial |
| C70 | An access through an I/O port interface reaches the port that it names | `IoPort` | case analysis over regions; kernel contract | partial |
| C71 | An error is handled by the handler that is registered for it | `Errors` | history characterisation of the responsible handler | partial |
| C72 | Every mutex made at run time has a notification of its own | `Mutexes` | simulation by the allocator of C49, history invariant | proved |
| C73 | Messages of a message queue arrive once, in order and unchanged | `MsgQ` | small-step machine at byte granularity, invariant over all interleavings, progress measures | partial |
| C74 | Every packet of the debugger is executed exactly once, unchanged | `GdbPacket` | invariant of the character machine over all histories | partial |
| C75 | The debugger reads and writes exactly the memory it names | `GdbMem` | exact results by symbolic execution of the parser, then the range | partial |
| C76 | The debugger reads and writes exactly the register it names, and breakpoints are those it set | `GdbRegs` | exact results per command, history invariant for breakpoints | partial |
| C77 | A stopped thread stays stopped until the debugger resumes it, and then runs as told | `GdbRun` | small-step machine, invariants and counting over all interleavings | partial |
| C78 | Attribute values reach the generated code unchanged | `AttrText` | mutual induction over types with a reader of C initialisers; invariants of the list of structs | partial |
| C79 | Hardware interrupts reach their handler | `HwIrq` | invariant over all interleavings of device, thread, handlers and driver; negations by concrete interleavings followed by an invariant | partial |
| C80 | The configured interrupt is the one that is allocated and found | `IrqConfig` | case analysis of the template against a relation between settings and handlers | partial |
| C81 | Events of an IOAPIC interrupt are delivered once | `IrqEvents` | ghost location of every registration as an invariant; history invariants; negations by concrete interleavings | partial |
| C82 | A declaration becomes the object that was written | `Decls` | source syntax as a separate inductive type with its concrete tree and its meaning; the lifter is run on the tree, by mutual induction | partial |
| C83 | Thread settings reach the thread they are written for | `Threads` | settings as wishes for a scope, written the way the manual says; the TCBs of the model are compared with the wishes, by injectivity of the naming | partial |
| C84 | Every thread has its own stack and IPC buffer, fenced by guard pages | `Threads` | injectivity of the thread names by splitting at the last underscore; page arithmetic for stacks | partial |
| C85 | Components that share a dataport share exactly its memory, with the configured rights | `Shmem` | history of template renderings over the object allocator of Verif.Context, with an invariant that relates frames and names; rights by exhaustive analysis of the regular expression | partial |
| C86 | Every register of a device is mapped | `DevMem` | cells as big-endian numbers by induction; page arithmetic, stated as the exact set of mapped bytes | partial |
| C87 | A component that makes kernel objects itself is told of every resource it was given | `Simple` | the template as a sequence of allocations by name, with an invariant that relates slots and names; the switch as arithmetic over lists | partial |
| C88 | A device resource found by address or number is the one asked for | `Simple` | the same invariant; searches by induction over the regions, ranges and cases | partial |
| C89 | Physical addresses, capabilities and cache maintenance of DMA memory are right | `DmaMap` | the templates give pools of a certain form; an invariant of histories relates the generated descriptors to the frames; lookup by induction over the pools | partial |
| C90 | The statistics of the DMA allocator are what happened | `DmaStats` | the functions of the allocator with statistics, a simulation by those without, and an invariant that gives each counter as a function of the recorded history | partial |
| C91 | Synchronisation objects and pools of a component are its own and are what is configured | `Pools` | requests by name against a table; the names that are generated are shown to be different; the generated calls are run on the model of the allocator | partial |
| C92 | A component can make exactly the secure monitor calls that are configured | `Pools` | the same table and a search through the cases | proved |
| C93 | Boot information reaches the component that asks for it | `BootFrames` | arithmetic of frames for every size, with the copy as a loop over bytes | partial |
| C94 | A component in CakeML gets calls as its clients make them | `CakeRpc` | the model of the client from Marshal on one side and of the CakeML code on the other: the bytes of the client are decoded | partial |
| C95 | A component in CakeML stays within its buffers and refuses what is not a call | `CakeRpc` | every function returns either a result or a reason to stop; induction over messages | partial |
| C96 | Files of a component in CakeML | `CakeFfi` | exact contents of the arrays after each function, for all descriptors and results of the system | partial |
| C97 | Arguments and start of a component in CakeML | `CakeFfi` | the same for arguments; the start is a finite case analysis of the results | partial |
| C98 | Host and domain name are those that were set last | `Posix` | invariant of the two variables over histories of calls | partial |
| C99 | System calls reach the functions that implement them, and the clock tells the time | `Posix` | the table as a function of the macros, and a fold that installs it; arithmetic for the clock | partial |
| C100 | Every reference of a specification becomes the declaration that it means | `Resolve` | a forest with references; induction over the traversal with the scopes as accumulators, which are shown to be what is visible from each position in the resulting tree | partial |
| C101 | Queries in settings are replaced by their answers | `Queries` | settings with queries, engines as functions; induction over the settings, the path of keys as an inductive relation | partial |
| C102 | References may go forward and mean the same declaration, wherever it is written | `Forward` | the unchanged tree and the list of references replaced so far; induction over the traversal, each decision related to the final list because that only grows; the cycle check by the theorem about it in Acyclic | partial |
| C103 | What the parser delivers is what the specification says, through all stages after name resolution | `Pipeline` | the models of stages 6 to 10 one after the other; the theorems of each stage composed: joined interfaces by induction along the chain of connections, values by induction along the chain of references | proved |
| C104 | The generated formal description of an assembly says what the assembly is | `ArchSpec` | the theory as a list of definitions; reading it back by looking up names is compared with a specification of what the assembly is; names by injectivity of the prefixes and of the replacement of dots | partial |
| C105 | Components, methods and parameters that may not be declared are refused | `CNames` | the checks as functions giving the first refusal; equivalence with a specification of legal declarations, and truth of each message, by induction over the lists | partial |
| C106 | Every operation of a component has a C name of its own | `CNames` | the names of the header as pairs of a member and what follows it; no duplicates by counting over a rearrangement by members and injectivity of concatenation where no name extends another by an underscore; exactness by cases | partial |
| C107 | Time stamps of a connector are those that were taken | `Timing` | the variables of the macros as a state and their uses as events; by an invariant over histories that gives every cell of the buffer by the last event for it | partial |
| C108 | The template linter accepts exactly the templates whose directives are nested | `Lint` | both tokenisers and both loops of main as functions; the nesting as a grammar, equivalence by induction over the grammar and over the stack; viable prefixes for the messages; tokens by a specification of writing templates | partial |
| C109 | A server with several clients executes the method that was called and answers with its results | `Dispatch` | the generated dispatch as a list of tokens with braces and labels, executed per message; by the type dictionary as an invariant of its loop, the round trip theorems of C47 and C48, and induction over histories | partial |
| C110 | An error is reported at its place, with the line marked | `ErrMsg` | formatting as a function on lists of characters, the regular expression for messages of the parser as a deterministic matcher; carets by their positions; composed with C07 for the place | partial |
| C111 | Instances that share an address space are linked together, and a direct call reaches the connected procedure | `Colocate` | options of objcopy as lists with the shared set of interfaces threaded through all instances; objcopy and the linker as functions on symbol tables; bindings characterised by the connections | partial |
| C112 | Every instance is built from exactly the generated files that it needs, each made from its own part of the assembly | `GenFiles` | CMake lists as lists of texts with the expansion of unquoted arguments; the calls of CAmkESGen of an instance as a list, compared with an inductive specification of the files an instance needs; composed with the resolution of items by the runner | partial |
| C113 | A change that matters is noticed by the build | `Deps` | The parser and the runner as functions of a file system (reusing the models of imports, queries and make rules), templates as trees of requests for other templates; two file systems that agree on the reported files give the same run, by induction over the loop of imports and over the requests | partial |
| C114 | The generated statement of integrity labels every object with its group | `Integrity` | The allocated objects as lists under labels, the generated lists and lemmas as functions of them and of the model of group labels; exact membership, and truth of the stated lemmas of the generated lists under the well-formedness of C37 | partial |
| C115 | The formal behaviour of the glue code carries calls as the interface says | `Glue` | The generated definitions as structures (constructors, places, projections), with the meaning of Request, Response and case of CIMP; delivery by induction over the parameters, routing by uniqueness of connected interfaces, names by unique splitting | partial |
| C116 | The build is what the build scripts ask for | `BuildApi` | A machine over the calls of camkes.cmake; an invariant gives the state as a function of the calls so far; acceptance by induction over the calls; the parser of keywords against the groups of the arguments | partial |
| C117 | The pre-processor of theories changes only whitespace | `Tpp` | The tool as a loop over lines with pushed back lines; an invariant says what is still to be written; runs of characters are kept by each pass; blank lines against a function on the visible lines; termination by induction over the input and the pushed back lines | partial |
| C118 | The debug check of the DMA free list accepts exactly the sound lists | `DmaCheck` | Memory as functions from addresses to the fields of a node; the loops with a number of rounds. A sequence of addresses is eventually periodic (pigeonhole), and the search meets the circle in the round in which its power of two exceeds start and length; on lists that end the loops are equal to searches in the list | proved |
| C119 | Interfaces are registered with the properties they are given | `IfaceProps` | The call with its allocations as parameters; the counting loop by induction over the distance to the end of memory; the copy loop by induction over the strings | partial |
| C120 | The report of a fault says what happened, where and in which thread | `FaultShow` | The message registers are state that every line printed may change; each kind of fault is followed from the kernel's message to the first line; the tables of registers of the five architectures are compared with the kernel's order | partial |
| C121 | The debugger's serial port is set up whatever it was before, and what is printed goes out | `GdbPort` | The port is a machine with registers behind shared addresses, which sends and receives by itself before each access; the program's loops have fuel; an invariant relates the program's count of bytes to those in the port | partial |
| C122 | Each interrupt of a device of the device tree reaches its own handler | `DtbIrq` | One notification word with a bit per interrupt, masks and pending flags as functions of the interrupt; steps of device, thread and late acknowledgements in any order; invariants over all schedules, a decreasing measure for coming to rest, and an invariant of an interrupt that nobody acknowledges | partial |
| C123 | A component that makes kernel objects is told where its memory is | `UntypedAddr` | The kernel's untyped memories with a count of objects and a watermark, one slot; the loop over the memories; induction over the list for any memories and any handler | partial |
| C124 | Both computations of the size of a CNode agree and are right | `CNodeSize` | Both functions and the loop of the tool; the loop by induction, the logarithm by its characterisation | proved |
| C125 | The C code generated for remote procedure calls is well typed | `RpcSig` | Texts of parameter and argument lists as lists of pieces; a C type is const or not, a name and a number of stars; grammar of lists, types of expressions and assignability in the specification; by induction over the parameters with a case distinction over direction, array and type; distinct names by a lemma on suffixes | partial |
| C126 | A connection gives each end the capabilities of its role, and nothing else | `ConnCaps` | Allocations of each template as data, run through the model of the allocators of C38, with badges; an invariant says for every allocation which slot, object, rights and badge it has after any history; a lemma on names shows when two connections can have the same object | partial |
| C127 | The handler of a fault is told which thread it was | `FaultCaps` | Allocations of the templates run through the model of the allocators of C38, with badges, TCBs and fault endpoint slots; the kernel's delivery of a fault is the specification; invariants over the loops over threads and over the slots of the CNode | partial |
| C128 | The checker of dependencies reports what is missing | `DepCheck` | What other programs answer is a parameter; the search for the version is proved to find the first line that tells one, the comparison of decimals to agree with that of versions for equally many digits; inductions over dependencies, components and extras give the report | partial |
| C129 | Both ends of a queue in shared memory see the same queue | `QueueEnds` | The layout is computed in natural numbers and the size of the pool modulo the machine word; positions of both ends are compared; buffers are located with the theorem about the allocator (C53) for all histories; an invariant on histories says to which channel an end is connected | partial |
| C130 | The bookkeeping of the DMA allocator stays intact in the memory it manages | `DmaPtr` | The list of free blocks is a linked list in a memory of cells; a representation relation to the list model of C43 is kept by every operation, including the loops of defrag with the pointer that is left to a removed node; theorems of the list model are then transferred | proved |
| C131 | The wrapper of the static analyser hides only the warnings that the source marks | `Goanna` | The regular expressions are data for a model of Python's backtracking matcher, which is proved to find the longest or shortest parts; from this the exact meaning of the two expressions, and with it of the loop over the lines | partial |
| C132 | The I/O operations of a component are set up completely or the caller is told why not | `IoOps` | The heap, the static variables and the structures are values; the set-up is the chain of the code. An invariant over histories ties the list behind each structure's cookie to the mappings that are left, counted in the specification from the history | partial |
| C133 | An import leads to the file that its text names, however files are spelled | `Paths` | The functions of posixpath on lists of characters; the specification is a relation that follows a path through a tree of directories as the operating system does. Following a path is shown to be the loop of normpath; its results are normal forms, and with the theorem on imports each place is read once | partial |
| C134 | To the program that it runs, an instance is a process with threads of its own | `Process` | The threads of a component as a machine over memory: initialisation, stores and exit in any order. An invariant places the storage of each thread in a region of its own. Printing is a second machine with a step for the test and a step for the call of the function; what a thread knows of the output and what is still to come make up what it wrote | partial |
| C135 | A server in CakeML answers each of its clients, whatever its methods wait for | `CakeReply` | The server as a machine whose calls pass capabilities through arrays of bytes, over the thread and kernel of C54. An invariant says that the saved capability is in the slot of the source and that the CNode arrived; every step then has the same events as the step of the server in C, so C54 and C56 carry over | partial |
| C136 | The tools say what is wrong, as loudly as they were asked to, and their checks change nothing else | `Diag` | Logging as a list of messages with levels, filtered by the threshold of the verbosity; the two programs as functions to an exit code, the visible messages and what was written. The regular expression for names as the greedy match that it is, compared with identifiers | partial |
| C137 | A server uses the system calls of its kernel, and on a real-time kernel no wait loses a client | `RtReply` | The generated calls as function names with arguments, what the compiler and the kernel's library make of them by position, and the server as a machine over the caller in the reply object. An induction over the actions shows that there is always exactly the caller of the current request | partial |
| C138 | A dynamic component is told the truth about its initial capabilities | `SimpleEnv` | The functions as functions of the configuration and of the shared data; the calls of threads as a fold over that data. Induction over the threads and over the cases of the generated switch | partial |
| C139 | Every end of a standard connection gets the code of its connector | `StdConn` | The tables of connectors, of templates and of files as data, the declarations as a fold; on top of the model of C112. Declarations of users are shown by induction to leave the standard targets alone, the finite table is checked once, and the assembly, its connections and ends are arbitrary | partial |
| C140 | Settings of cores, heap and capability space take effect or are refused | `InstSet` | The settings as a function from names to values, the uses of them in the templates as functions of it; the instances of an address space as a fold. Induction over the instances; the rest by cases on the settings | partial |
| C141 | Theories for verification are made once, under the names by which they refer to each other | `VerNames` | The lists of the CMake file as a state, its functions as steps; paths and names as lists of characters. Induction over the calls; the names by cases on the first character, on top of the area Diag | partial |
| C142 | A struct that is written in place gets a name of its own | `AnonStruct` | Types as they are written and as they are in the AST as trees, the lifter as a recursion that passes the counter, the specification as a list of items. Invariant: all structs are in a table in which no name stands for two; mutual induction over types and fields, then induction over the items | partial |
| C143 | The table of C keywords has exactly the keywords that could be identifiers | `KeyTable` | The words as a list, the loop with its two variables as a recursion that returns the text. Induction over the words with the length of the current line as invariant | proved |
| C144 | The check of leading assertions finds type checks of the wrong thing | `ArgLint` | Expressions as a tree with the forms that the check looks at, Python's version as a parameter, exceptions as none. Induction over the statements and the functions | partial |
| C145 | In a method, the identity of the sender is that of the caller | `SenderId` | The variables of the interfaces, the system calls before each thread and who is in a method as the state; returns, replies and received calls as events. Induction over histories; badges from C35 | partial |

## What is modelled, what is not, and what is assumed of code outside

* **Acyclic** – `camkes/parser/stage4.py` cycle check over the containment graph of the AST
  Not modelled: source locations in messages
* **AnonStruct** – camkes/parser/stage3.py (115-120, 215-228, 697-705), camkes/ast/objects.py (579-596), camkes/parser/scope.py (50-70)
  Not modelled: scopes inside components, forward references; the header is in the area AttrText
  Contract: none
* **ArchSpec** – arch-definitions.thy: every definition, in order, and the names each lemma mentions; isabelle_ident, isabelle_ADL_ident and their shorthands, uniq, interface_is_exported
  Not modelled: the proof scripts and theorem attributes of the theory, its imports, check_isabelle_outfile, quotes inside text that is written between quotes; group labels and policy are taken as given (see Groups)
  Contract: the regular expressions of Python's re on names without line ends
* **ArgLint** – tools/camkes_lint.py (21-124)
  Not modelled: arguments in parentheses, the lines in the messages
  Contract: what Python's ast module makes of a source
* **AttrRef** – `camkes/parser/stage8.py`: resolution of attribute references, with the depth counter
  Not modelled: the text of a reference beyond its split at the last dot
  Contract: default values and subscripts of dictionaries are parameters
* **AttrText** – `macros.py`: attribute values, types and definitions of structs; attribute declarations in `component.template.h`/`component.common.c`
  Not modelled: the text of a struct definition (only what it declares)
  Contract: C compiler: initialisers of arrays and structs, conversion of integers; Python's text of floating point numbers
* **Badges** – `macros.py` badges of global endpoints, `rpc-connector.c` badges of clients
  Not modelled: parsing of numbers in settings
  Contract: `seL4_Value_BadgeBits`
* **BootFrames** – `register_fill_frame`, the device tree in component.common.c, `camkes_io_fdt`, `camkes_get_extended_bootinfo`
  Not modelled: a negative room for the copy
  Contract: the loader fills frames as told and writes a header with the length, or -1
* **BuildApi** – camkes.cmake: the options and flags, the declarations, the generation, the paths; camkes-gen.cmake: what it reads of the targets
  Not modelled: DeclareCAmkESConnector (in GenFiles); the check for stale outputs; the test for a negative affinity; how the tools are found
  Contract: CMake: properties, cmake_parse_arguments, when generator expressions are evaluated; get_absolute_list_source_or_binary leaves absolute paths alone; elements of lists have no semicolons and are not empty; files neither come nor go
* **CNames** – Component.freeze, Method.freeze, Parameter.freeze, Attribute.freeze and the duplicate check of MapLike.freeze; C_KEYWORDS; the names declared by component.template.h and the parameters of its prototypes, with the search for the connection of an event
  Not modelled: types in the header (print_type_definitions), struct types of attributes, names from included files, checks of compositions and configurations (see Freeze, Decls)
  Contract: none
* **CNodeSize** – tools/cnode-size-playground.c: all
  Not modelled: printing
  Contract: log2 of a double is exact enough for its floor, for numbers below 2^28; the functions are those of python-capdl and l4v, as the tool says
* **CakeFfi** – io.c, args.c, camkes_init.c, component.environment.end.cakeml
  Not modelled: the file system; virtqueue.c
  Contract: `read` returns at most what it is asked for; a machine with the lowest byte first
* **CakeReply** – camkes/templates/rpc-connector.c (110-147, 191-271, 301-359: the branches for CakeML), component.environment.start.cakeml (67-121), libcamkescakeml/src/ipc.c (13-101: which capabilities are used)
  Not modelled: the contents of the messages (C94) and real-time kernels, for which the generator stops
  Contract: that the foreign function interface passes the array itself, and that a slot the kernel is asked for holds nothing but what was put there
* **CakeRpc** – seL4RPCCall-to.template.cakeml, the functions in component.environment.start.cakeml, the CakeML parts of rpc-connector.c, ipc.c
  Not modelled: several threads; capabilities; messages longer than the IPC buffer
  Contract: the C client is the one of Marshal; CakeML arrays check their bounds and raise Subscript
* **CapAlloc** – `libsel4camkes/src/allocator.c` in full
  Contract: `calloc` may fail at any call
* **ClientLock** – `rpc-connector-common-from.c`: calls of client threads through a shared buffer
  Not modelled: marshalling (area Marshal)
  Contract: libsel4sync's semaphore, `seL4_Call`
* **Colocate** – camkes-gen.cmake: groups, grouped, the options of objcopy, the images of groups, the lists of ELF files and keys; linker.lds: grouped; seL4DirectCall templates; component.common.c: the start symbol
  Not modelled: weak, common and section symbols; removal of exception frames
  Contract: objcopy (--redefine-sym, --keep-global-symbol) and the linker as modelled in Colocate/Model.lean
* **Compose** – `camkes/parser/stage6.py`, `stage3.py` composition of assemblies
* **ConnCaps** – camkes/templates/rpc-connector.c:30-62, 80, 171-222; seL4Notification-{from,to}, seL4NotificationQueue-{from,to}, seL4NotificationBind-{from,to}, seL4NotificationNative-{from,to}: all allocations; camkes/runner/Context.py:59-88 and camkes/runner/__main__.py:274-299 through Context
  Not modelled: other connectors (C79, C80, C81, C85, C122); the capability of a server to its own CNode; shared memory of the queue connector; labels
  Contract: the allocators of capDL as in C38; the template is rendered for the end that the item names
* **Consolidate** – `camkes/parser/stage9.py` merging of connections
  Not modelled: names of merged connections are opaque
* **Context** – `camkes/runner/Context.py`: objects, capabilities, symbols, shared variables
  Not modelled: `register_fill_frame`, stash and the remaining small functions
  Contract: capDL allocators: idempotent allocation by name, fresh slots
* **DPtr** – `component.common.c` and connector templates: wrapping of pointers
  Not modelled: the memory itself
  Contract: linker places dataports where the layout says
* **Decls** – all lifters of `stage3.py` and `lift`, on the trees of `camkes.g`
  Not modelled: locations; filenames; the lexer and the parser itself (plyplus)
  Contract: plyplus yields the tree that `camkes.g` describes: one node per rule, `@` rules inlined, keywords filtered out
* **DepCheck** – tools/check_deps.py:33-140, 230-267
  Not modelled: colours; the literal tables of dependencies (lines 155-227, arbitrary in the theorems); rounding of floats and of the numbers in one message; digits and spaces beyond ASCII
  Contract: subprocess, importlib, argparse and re as documented
* **Deps** – parser/__main__.py main, stage0.py parse_file, stage1.py parse_file, query.py parse_query_parser_args, check_options and get_deps of both queries; Renderer.py; runner/__main__.py: the rendering loop and the rule; camkes-gen.cmake: shortening the rule
  Not modelled: the contents of stages 3-10, the parsing of device trees, the evaluation of templates; parameters
  Contract: jinja2: ChoiceLoader, FileSystemLoader and the cache of templates; cpp reports what it reads (hypothesis Honest); make and ninja read rules as parse_makefile_rule does
* **DevMem** – `parse_dtb_node_reg`, the register section of `seL4DTBHardware-to.template.c`, `seL4HardwareMMIO.template.c` up to the frames, `translate_paddr`
  Not modelled: interrupts (see Irq, IrqConfig); cache flushing (see Flush)
  Contract: 4096 is the smallest page size; frames can be mapped at multiples of their size only
* **Diag** – camkes/internal/log.py, camkes/runner/__main__.py (54-75, 157-185, 204-237, the messages of 266-301), camkes/parser/__main__.py (23-104), camkes/templates/macros.py (441-449: check_isabelle_outfile)
  Not modelled: the other options, and which item an error belongs to (C41, C60)
  Contract: Python's logging, argparse and regular expressions as documented
* **Dispatch** – rpc-connector-common-to.c: type_dict, the functions that are defined, the switch over badges, the choice of the method, the call and the reply; rpc-connector-common-from.c: a call
  Not modelled: several threads, locks, passive set-up, freeing of memory; ignoring errors within marshalling; C names and declarations other than functions for methods
  Contract: C: duplicate case labels, duplicate functions and unbalanced braces are refused
* **Dma** – `libsel4camkes/src/dma.c`: initialisation, allocation, free, defragmentation
  Not modelled: statistics, debugging checks, wrap-around of `size_t`
  Contract: libutils rounding macros; users do not write to free memory
* **DmaCheck** – libsel4camkes/src/dma.c: check_consistency with extract_paddr, try_extract_paddr, save_paddr
  Not modelled: what the assertions print; a build with NDEBUG, in which the check does nothing
  Contract: a node's memory can be read; camkes_dma_get_paddr gives an address with the same offset in a page; int does not overflow
* **DmaMap** – the DMA pools in component.common.c and seL4DMASharedData.template.c, `get_frame_desc`, `camkes_dma_get_paddr`, `camkes_dma_get_cptr`, the frame part of `camkes_dma_init`, `dma_cache_op` on ARM
  Not modelled: wrapping of addresses; what the kernel does for a cache system call
  Contract: the linker aligns symbols and keeps them apart; the kernel tells the physical address of a frame; frame `i` of a symbol is mapped `i` frame sizes after its start
* **DmaPtr** – libsel4camkes/src/dma.c:38-192, 307-386, 406-512, 558-561, 603-832, with the list in the memory
  Not modelled: overflow of addresses and sizes, the size of a field in bytes (a field is one cell), statistics and the debugging checks, and pools without a page size
  Contract: that only live allocations and memory that is not the allocator's are written to (shown to be needed), and the arithmetic of Verif.Dma
* **DmaStats** – all statistics in libsel4camkes/src/dma.c
  Not modelled: wrapping of counters; `check_consistency`
  Contract: as for Dma
* **Drivers** – `libsel4camkes/src/io.c`: initialisation of driver modules, down to the linked lists
  Not modelled: messages
  Contract: device-tree library, drivers and `malloc` are oracles that may depend on the whole history
* **DtbIrq** – camkes/templates/seL4DTBHardware-to.template.c:109-204: the handlers and badges, X_irq_acknowledge, the loop of X__run; with Interrupts for the numbers
  Not modelled: registering callbacks (Irq, HwIrq): here they are registered; a conflict of callback and handle function stops the program, in the model the loop goes on
  Contract: an interrupt signals its badge and is masked until it is acknowledged, one that comes while masked stays pending; signals add up in the notification until it is read; the variables of the blocks of the loop may have the same memory; the C compiler refuses a switch with a case twice
* **ErrMsg** – internal/exception.py: _get_line, _format_message; parser/exception.py: ParseError; location.py: the search for the place in an error of the parser; stage1.py: parse_file, parse_string (failures), augment_exception
  Not modelled: tabs and wide characters; ends of lines other than line feeds; white space and digits outside ASCII
  Contract: plyplus: the text of an error is its message; re and str as described in the Python documentation
* **Errors** – `error.c`, `helpers/error.c`, the `ERR` macro
  Not modelled: mode `GUARD`, printing of errors
  Contract: what handlers return
* **FaultCaps** – camkes/templates/component.common.c:431-433, 451-519, 607-685 (fault endpoints and names); seL4GDB-from.template.c, seL4GDBMem-from.template.c; seL4GDB-to.template.c:29, 87-102; seL4GDBMem-to.template.c:11
  Not modelled: options.realtime; other settings of threads (C83, C84); what the handlers do afterwards (C64, C75-C77, C97)
  Contract: the allocators of capDL as in C38; the kernel delivers a fault through the capability in the slot that the TCB names if it allows to send and to grant or to grant a reply
* **FaultMap** – `fault.c`, the memory map in `component.common.c`
  Not modelled: widths of numbers in the output
* **FaultShow** – libsel4camkes/src/fault.c: camkes_show_fault; show_unknown_syscall_fault of all architectures; with FaultMap for the memory map
  Not modelled: the text around the values; how numbers are formatted; sel4debug_dump_registers_prefix
  Contract: the order of the words in the kernel's messages and that its numbers are distinct
* **Fdt** – `fdtQueryEngine.py`: cells, ranges, address translation
  Not modelled: regions with missing properties beyond the cited cases
  Contract: words are below 2^32 where needed
* **FdtQuery** – `fdtQueryEngine.py`: query conditions and their evaluation
  Contract: pyfdt's walk; Python's regular expressions and `int`
* **Flush** – `arch/arm/dataport.c` cache maintenance and the frame tables of the templates
  Not modelled: `size_t` wrap-around at the top of the address space
  Contract: kernel: end offset exclusive, range inside the frame
* **Forward** – stage4.py resolve with forward references, both passes, the check for cycles and for references left; preorder of base.py
  Not modelled: the text of errors
  Contract: the children of objects in the order of child_fields; different objects have different numbers
* **Freeze** – `camkes/ast/objects.py`, `base.py`: checks at freezing
* **Frozen** – `camkes/ast/base.py`: freezing and assignment on a heap of objects
  Not modelled: what the classes check (areas Freeze, TypeCheck)
* **GdbMem** – `gdb.c`: memory commands; `component.debug.c`: memory; `seL4GDBMem-to.template.c`
  Contract: C library string functions; kernel: faults and replies; the RPC between server and component
* **GdbPacket** – `serial.c`: characters, packets, sending; `gdb.c`: checksums and acknowledgement
  Not modelled: registers of the serial device beyond ready, data and room in the FIFO
  Contract: C library string functions; interrupts are delivered
* **GdbPort** – libsel4camkes/src/sel4_arch/ia32/gdb_server/serial.c: serial_init and what it calls, clear_iir, wait_for_fifo, serial_output_via_fifo, serial_putchar, the loop of gdb_printf; with GdbPacket for the characters
  Not modelled: the locks; formatting of the text, cut to 255 characters
  Contract: how a 16550 port works: its registers, the divisor latch bit, that switching the queue on or off empties it, and that bits 6 and 7 of the interrupt register are set while the queue is on; both empty bits of the line status are one
* **GdbRegs** – `gdb.c`: register and breakpoint commands; `component.debug.c`: registers and breakpoints
  Contract: kernel: registers and hardware monitors of a thread
* **GdbRun** – `seL4GDB-to.template.c`: fault handler; `gdb.c`: run control, queries, dispatch; `component.debug.c`: stepping
  Not modelled: races inside the reception of a fault with a debugger that does not wait
  Contract: kernel: faults, replies, single stepping; libsel4sync's semaphore
* **GenFiles** – camkes-gen.cmake: CAmkESGen, ParentListAppend, the files of every instance, camkes.h; camkes.cmake: DeclareCAmkESConnector
  Not modelled: static sources, libraries, flags, dependencies and the reformatting of files; the verification files
  Contract: CMake: unquoted arguments, set_property APPEND, cmake_parse_arguments as modelled in GenFiles/Model.lean
* **Glue** – cimp-base.thy, all but the definitions of events and dataports for components, which only pass the channel on
  Not modelled: the language CIMP itself and the imported theories
  Contract: CamkesGlueSpec: Request, Response, variable, Buf; an undefined case is a value that nothing is known of; Isabelle reads the generated text as the structures of the model
* **Goanna** – tools/goanna_wrapper.py
  Not modelled: characters outside of ASCII in the classes of the regular expressions, decoding errors, and the standard output, which the analyser writes itself
  Contract: the order in which Python's re tries alternatives
* **Groups** – `camkes/parser/stage5.py` in full
* **Hash** – `camkes/ast/base.py`, `camkes/internal/hash.py`: comparison and hashing
  Not modelled: floats and booleans
  Contract: Python's tuple and string hashes are functions of the value
* **Hierarchy** – `camkes/parser/stage7.py`: flattening, exports, settings
  Not modelled: source locations
* **HwIrq** – the loop of `seL4HardwareInterrupt.template.c`; registration in `irq.c` as single assignments
  Not modelled: reading function and data of a callback in two steps
  Contract: kernel: interrupts are masked from signal to acknowledgement; one pending interrupt is kept
* **IfaceProps** – libsel4camkes/src/interface_registration.c: camkes_interface_register with properties, copy_properties_array, destroy_properties_array
  Not modelled: the sizes of allocations (they may fail or succeed for any size)
  Contract: a pointer advanced past the last address becomes NULL; reading through NULL is a fault
* **IfaceReg** – `interface_registration.c` without properties
  Not modelled: properties of interfaces (`copy_properties_array` advances a pointer over characters; its behaviour is undefined)
  Contract: sglib lists
* **Imports** – `camkes/parser/stage2.py` import resolution
  Not modelled: canonicalisation of paths by the operating system
  Contract: stages 0 and 1 return the tokens of a file
* **InstSet** – camkes/templates/component.common.c (45-49, 83-85, 106-114, 285-313, 505-518, 909-919), camkes/templates/component.simple.c (167-180, 299-306), camkes/templates/macros.py (388-420), camkes/templates/seL4Notification-from.template.c
  Not modelled: the allocator of the C library, the size that is chosen for an automatic CNode (C87)
  Contract: what the preprocessor and int(s, 0) make of a text, parameters of the model
* **Integrity** – cdl-refine.thy: obj_labels, label_entries, group_label_lookups, policy_extra, tcbs_correct (the conjuncts about single objects), asids, irqs; macros.py isabelle_ident; Context.py object_label_mapping; the names and labels of the CNode, the page directory and the control thread
  Not modelled: the proofs of the theory, the policy, page tables, capabilities
  Contract: Isabelle reads the generated text as the lists of the model; the allocator keeps objects under the label they were allocated with
* **Interrupts** – `macros.py`: interrupts of device-tree nodes
* **IoMap** – `libsel4camkes/src/io.c`: mapping of device memory
  Not modelled: wrap-around of addresses
* **IoOps** – libsel4camkes/src/io.c (set-up), interface_registration.c (set-up), dma.c (camkes_dma_manager), irq.c (camkes_irq_ops)
  Not modelled: reuse of freed addresses, and the functions behind ports, DMA and interrupts, which other areas model
  Contract: ps_calloc and ps_new_stdlib_malloc_ops of libplatsupport
* **IoPort** – `arch/x86/io.c`, `seL4HardwareIOPort.template.c`
  Contract: kernel: a port capability covers its region
* **Irq** – `libsel4camkes/src/irq.c` in full
  Contract: kernel notifications carry the badge bits that were set
* **IrqConfig** – settings to handler and entry in `seL4HardwareInterrupt.template.c`
  Not modelled: negative numbers in entries
  Contract: python-capdl makes the handler it is asked for
* **IrqEvents** – `seL4IOAPICHardwareInterrupt.template.c`: interrupt thread, poll, wait, reg_callback
  Not modelled: the settings (as in C80)
  Contract: kernel as for HwIrq; compare-and-swap and atomic increments are single steps
* **KeyTable** – tools/ckeywords.c (58-148)
  Not modelled: the header and the footer
  Contract: the regular expression of the C library; the preprocessor makes the list from Clang's file
* **Labels** – `macros.py` integrity labels
* **Lift** – `camkes/parser/stage3.py`: literals, dictionaries, connectors, references
  Not modelled: the parse tree itself
* **Lint** – jinja_lint.py: low_tokeniser, high_tokeniser, main
  Not modelled: the warning about else in a for block; white space and letters outside ASCII; empty options
  Contract: str.find, str.strip, re as described in the Python documentation
* **Location** – `camkes/ast/location.py`
  Not modelled: Unicode white space and digits
* **Macros** – `macros.py`: rounding, untyped decomposition, integer types
  Contract: capdl page sizes and `ctz`
* **Makefile** – `camkes/parser/stage0.py`: make rules
  Contract: Python's notion of white space is a parameter
* **Marshal** – `marshal_macros.h`, `helpers/marshal.c`, `rpc-connector-common-to.c`
  Not modelled: `int` counters of string arrays do not overflow; big endian machines
  Contract: `strnlen`, `memcpy`
* **MsgQ** – `msgqueue.c`, `msgqueue_template.c`, `virtqueue_common.c`
  Not modelled: notifications
  Contract: libvirtqueue rings are FIFO with `q` descriptors; libutils power-of-two macros
* **Mutexes** – `sync.c`
  Not modelled: locking (libsel4sync)
  Contract: `calloc` returns memory that is not in use
* **Notification** – `seL4Notification-to.template.c`, `seL4NotificationQueue-to.template.c`
  Not modelled: reporting
  Contract: libsel4sync's semaphores
* **NumExpr** – `stage3.py` numeric expressions over integers
  Not modelled: floating point, memory exhaustion
* **Paths** – camkes/parser/stage2.py (targets of imports)
  Not modelled: bytes and characters that the file system does not allow in names, case-insensitive file systems, hard links and chains of links (a link names the place that it stands for)
  Contract: the source of Python's posixpath, as read in its documentation and implementation
* **Pipeline** – parser.py and base.py: stages 6 to 10 one after the other, each stage by the model of its own area
  Not modelled: the query stage, the type check of settings and the freezing of anything but the composition, its connections and the configuration: leaving out a check makes the model accept more
  Contract: what stages 0 to 5 guarantee: distinct names without dots, ends and exports that exist
* **Pools** – component.common.c: the capabilities for secure monitor calls, mutexes, semaphores, binary semaphores and all pools, with `camkes_provide` and `camkes_alloc`
  Not modelled: locking itself (libsel4sync); names that contain the name of a thread; the fault endpoint
  Contract: a new capability takes a slot that is not in use and is not null; `seL4_CanRead` is a number or a structure
* **Posix** – sys_uname.c, sys_clock.c, vsyscall.c, installation in sys_io.c
  Not modelled: what the functions of the table do (Sockets, Select, Vma); sys_exit.c
  Contract: `muslcsys_install_syscall` replaces one entry and returns the old one
* **Process** – camkes/templates/component.common.c (51-76, 449-604, 813-856, 1083-1089: process and thread numbers, names, thread-local storage, printing), libsel4camkes/src/{sys_exit,sys_thread,start}.c
  Not modelled: scheduling contexts, the semaphores of the initialisation (C62) beyond the order that they enforce, and the inside of the runtime's functions
  Contract: that the linker and malloc give different objects different memory, that the runtime's image fills exactly the storage it is given, and that the kernel suspends the thread of the capability
* **Queries** – query.py resolve and update_dict_keys of results, stage3.py _lift_query
  Not modelled: parse_query_parser_args; the engines (FdtQuery models the one for device trees)
  Contract: results are fresh objects; which characters are word characters
* **QueryKeys** – `query.py`: normalisation of keys
  Contract: word characters are a parameter
* **QueueEnds** – libsel4camkes/src/virtqueue_common.c:18-94, virtqueue.c:93-165, msgqueue.c:23-217
  Not modelled: what is in the rings (an outcome is a parameter; C73 has their contract), alignment, logging, and pointers near the end of the address space
  Contract: libvirtqueue, errno.h numbers as on Linux, and objects set to zero by the application before the first call
* **ReplyCap** – `tls.c`, `rpc-connector-common-to.c`: reply capabilities and the server loop
  Not modelled: MCS kernels
  Contract: kernel: reply capabilities, `SaveCaller`
* **Resolve** – stage4.py resolve without forward references, postorder of base.py
  Not modelled: allow_forward (Forward); the text of errors
  Contract: the children of objects in the order of child_fields
* **RpcSig** – camkes/templates/helpers/marshal.c: signatures, local variables, macros used and calls; camkes/templates/component.template.h:52-105; camkes/templates/rpc-connector-common-from.c:40-100; camkes/templates/rpc-connector-common-to.c:48-66, 116-185; macros.show_type
  Not modelled: what begin_send, perform_call, release_recv etc. declare; the method index; frees (Marshal, Glue); interfaces whose from ends have other types (Dispatch)
  Contract: a type of the language that is not built in is a C type of that name; buffers are void pointers and lengths are numbers; C assignability of pointers as written in Spec
* **RtReply** – camkes/runner/Context.py (278-296: generate_seL4_Recv, SignalRecv, ReplyRecv), camkes/templates/rpc-connector.c (237-264, 290-298, 326-337)
  Not modelled: the contents of messages, scheduling contexts and budgets
  Contract: the contracts of the system calls of both kinds of kernels, as stated at the head of the model
* **Runner** – `camkes/runner/__main__.py`: arguments, items, order of writes
  Not modelled: argparse
* **Scope** – `camkes/parser/scope.py` in full
* **Select** – `sys_select.c`
  Not modelled: `FD_SETSIZE`
  Contract: the server's answer is arbitrary
* **SenderId** – camkes/templates/rpc-connector.c (30-62, 110-118, 171-181, 238-273, 300-345)
  Not modelled: CakeML, unknown methods and badges, which end the loop's turn in the same way
  Contract: the kernel writes the badge of the capability that was used to the address it is given
* **Shmem** – the registrations of `seL4SharedData` and `seL4DMASharedData`, `get_perm`, `dataport_size`, `shared_buffer_symbol`, `register_shared_variable`
  Not modelled: the wrap functions (see DPtr); DMA pool entries
  Contract: python-capdl maps frame `i` of a symbol `i` frame sizes after its start; objects are found again by name; static assertions stop the build
* **Simple** – component.simple.c: all allocations, the enumeration and lookup functions, `camkes_make_simple`, extended boot information
  Not modelled: the scheduling control capability, the ASID pool call, `init_cap`, printing; capability copies themselves
  Contract: untyped memory has the physical address that the kernel reports; the page of a boot information frame holds the first 4096 bytes of it; slots are handed out in order
* **SimpleEnv** – camkes/templates/component.simple.c (190-198, 280-297, 350-388, 439-447, 464-477, 499-527)
  Not modelled: the wrappers of libsel4simple around the interface, races between threads inside one call
  Contract: the kernel's assignment of an identifier, a parameter of the model
* **Sockets** – `sys_socket.c`, `sys_io.c`: descriptors and the server
  Not modelled: sendmsg, recvmsg and other calls not cited
  Contract: server answers; `allocate_fd` returns a free descriptor
* **Startup** – `component.common.c`, `component.environment.c`: start of threads
  Not modelled: priorities, TLS, error handlers
  Contract: libsel4sync semaphores; scheduling contexts
* **StdConn** – camkes/templates/templates.cmake (7-54), include/builtin/std_connector.camkes (45-278, names and hardware), the names of the files in camkes/templates
  Not modelled: numbers of threads and attributes of connectors, templates in other directories
  Contract: that the build finds a template by its name in camkes/templates
* **Threads** – `threads`, `maybe_set_property_from_configuration`, `set_tcb_properties`, `set_sc_properties`, the thread loop and TLS regions of `component.common.c`, stack and IPC buffer symbols
  Not modelled: debug fault handlers' text; SMP checks; what the kernel does with priorities
  Contract: python-capdl maps page `i` of a symbol as the list for the symbol says; the linker gives different symbols different addresses
* **Timing** – timing.h: TIMING_DEFS, TIMESTAMP and the three functions; the names declared in component.template.h
  Not modelled: sel4bench; calls from several threads at once; more than 2^32 points
  Contract: C: int overflow and use outside of an array have no meaning
* **Tpp** – tools/tpp: all passes but Cowsay, the directives, the loop
  Not modelled: Cowsay (off by default); reading of the command line; the text of messages
  Contract: eval gives a value or an exception and has no effects; textwrap.wrap keeps the visible characters in lines that have some; characters are ASCII as far as whitespace and letters go
* **Traversal** – `camkes/ast/base.py`, `liftedast.py` traversals
  Not modelled: in-place update of shared nodes
* **TypeCheck** – `objects.py` `types_compatible`, `Assembly.freeze`
  Not modelled: sharing of default values
* **UntypedAddr** – camkes/templates/component.simple.c:405-437, 479-498: make_frame_get_paddr, the part of camkes_make_simple that stores the memories; with Simple for what is stored and Errors for actions
  Not modelled: the other fields that camkes_make_simple sets (Simple)
  Contract: seL4_Untyped_Retype needs an empty slot and room, and begins anew in a memory without objects; asking for the address of a page that exists succeeds; deleting the page leaves the memory without it
* **VerNames** – camkes/templates/camkes-gen.cmake (66-163 without reformatting and dependencies, 521, 631-686), camkes/templates/root.thy, camkes/templates/cdl-refine.thy (9-19), camkes/templates/arch-definitions.thy (9-12), camkes/runner/__main__.py (78-79, 157-162)
  Not modelled: the contents of the theories, the targets and dependencies of CMake, lists with semicolons
  Contract: get_filename_component and string(MAKE_C_IDENTIFIER) of CMake, as documented; the capDL tool writes the theory in the file that it is told
* **VirtqueueIds** – `macros.py` virtqueue ids
* **Vma** – `sys_madvise.c`, `component.common.c` table of memory
  Not modelled: dataports
  Contract: `sysconf` page size
* **VqAlloc** – `virtqueue.c`, `virtqueue_common.c` allocator, scatter, gather
  Contract: libvirtqueue rings
* **VqChan** – `virtqueue_template.c`, `virtqueue.c` lookup
* **VqMsg** – `virtqueue.c` messages in both directions
  Contract: libvirtqueue rings

Parts of the repository without a model: `camkes/visualCAmkES`, `docs`, `tools`, `misc`, `examples`, `components` and the CMake files; the Isabelle
templates (`*.thy`) and `cdl-refine-tests`; the grammar and plyplus (`camkes.g`, except the precedence levels of numeric expressions) and `cpp`; the
template engine (`Renderer.py`) and the text of templates as opposed to the C code that they generate; the C files and templates that no area above names.

## Disagreements between the code and the properties

Each is a theorem; the note says which.

* **C01** Imports are spliced depth-first and each file at most once. Splicing, order and at-most-once are proved for every finite file system; the at-most-once claim is about the path strings the reader sees. relative_root_read_twice proves that a root file given by a relative path can be read a second time through an import, so the property as stated does not hold for that case.
* **C04** Logical operators in constant expressions yield 0 or 1. The property is false of the code: logical_not_boolean proves that && and || can yield values other than 0 and 1. Comparisons and ! do yield 0 or 1.
* **C11** Flattening groups preserves instances and gives each group one address space. generated_name_collides proves that the name made up for an anonymous group can equal the name of another group, so two distinct groups can share an address space; distinctness is proved for groups whose names differ.
* **C16** Attribute references resolve to the value at the end of the chain. references_resolved_partial excludes dictionary subscripts on a reference to another reference; subscript_order_dependent proves that there the value depends on the order of the settings, so the full property is false of the code.
* **C18** Connections sharing an end are merged into one multi-way connection. Correct whenever the stage succeeds, and it succeeds when no connection shares through two different ends. overlapping_merge_fails proves that for other sharing patterns the stage raises an exception although the connections could be merged.
* **C23** Frozen AST objects are immutable and freezing is idempotent. freeze_idempotent_partial excludes compositions and lifted ASTs: refreeze_raises proves that freezing those twice raises TypeError. list_field_mutable proves that the list fields freeze does not turn into tuples can still be appended to.
* **C26** Equal AST objects are interchangeable as dictionary keys. Equality is an equivalence, ignores location and parent, and is respected by hashing. different_dicts_raise proves that comparing two settings with different dictionary values raises TypeError instead of returning false.
* **C27** Device-tree cell packing and unpacking are inverse. Packing and unpacking are inverse in both directions. short_data_accepted and zero_cells_never_end prove that the rest of the property is false: data of the wrong length is accepted, and with zero cell counts unpacking does not end.
* **C29** Device-tree queries return only nodes satisfying every stated condition. query_exact_partial assumes that a given path matches some node; path_miss_returns_others proves that otherwise nodes that do not match the path are returned.
* **C30** Query result keys become C identifiers without losing values. Holds for keys without newline that stay different when normalised; collision_loses and newline_kept prove that other entries are lost or kept unchanged.
* **C34** Notification badges on the global endpoint are distinguishable. Proved for every configuration whose base has no bits of the mask (always so with the default mask). overlapping_base_ambiguous proves that an overlapping base gives equal badges without an error.
* **C35** RPC badges identify clients uniquely. Badges lie in the mask, automatic badges never clash, explicit ones are kept. Not true in full: equal explicit badges are accepted, and a base overlapping the mask gives equal badges (both proved with witnesses).
* **C37** Integrity labels are a function of the group equivalence. Exact characterisation of the labels, and of the errors, if no grouped instance also has its own label and connection names are not used for anything else; order_matters proves that the result depends on the instance order otherwise.
* **C38** Object allocation by name is idempotent and rights only grow. Capabilities: proved in full for every history. Objects: proved within one entity; objects_alias proves that entity a_b asking for c and entity a asking for b_c get the same object.
* **C39** Generated symbols never collide. C symbols never collide with anything. Isabelle symbols are unique if their tags do not end with a digit; isabelle_collision proves that they collide otherwise.
* **C40** Shared-variable frames cover the variable exactly and agree between users. Proved when the frame size is chosen by the tool or divides the size; frame_size_truncates proves that another frame size is accepted and the frames do not cover the variable.
* **C41** The runner rejects mismatched output/item/template argument lists. The chained comparison accepts more than it should: accepted_iff is the exact condition, and the last three theorems are witnesses of wrongly accepted command lines.
* **C45** Cached and uncached DMA memory are never confused. The flag of a node that is split off is never written by the code; cached_flag_wrong proves that a cached allocation can then return uncached memory. Proved for histories in which the unwritten flag happens to be right.
* **C48** RPC unmarshalling never reads beyond the message. Complete for interfaces without arrays of strings or of elements larger than a byte. For the others the multiplication of the claimed length wraps: huge_array_accepted and string_table_overrun are messages that are accepted although the elements are missing, or that write outside of the pointer table. receive_sound_partial proves that this is the only exception.
* **C50** I/O mapping returns memory that backs the whole requested physical range. Sound if frames that follow each other in the table and in physical memory also follow each other in virtual memory (not_contiguous: otherwise not); complete if the covering frames are consecutive in the table and nothing before contains the address (covered_not_mapped: otherwise not).
* **C51** Registered driver interfaces are found again; duplicates are refused. The search is proved right. Registering is not: the duplicate test is inverted, so a second instance is refused and a duplicate accepted (register_exact is the exact condition).
* **C52** Interrupts are matched to the entry with the same description and dispatched to the right handler. After every history; dispatch is proved in full. Matching is symmetric and sound for complete descriptions only: check_not_symmetric is the witness.
* **C53** Virtqueue buffers handed out are distinct and inside the shared region. The allocator is proved for every history in which only allocated buffers are freed (double_free: otherwise not). That the blocks lie inside the shared region is proved if the rings fit in it; rings_too_large proves that the size wraps otherwise.
* **C55** Device-tree interrupt specifiers decode to the interrupts they describe. Decoding is right for well-formed properties with plain flags; four witnesses show where the code departs from the property (trailing cells, several extended interrupts, flags with a processor mask, three one-cell interrupts).
* **C56** The RPC server answers every request exactly once and to the client that sent it. Proved for runs without dropped requests and without errors in saving. A dropped request makes the next one fail an assertion, or makes its client receive the answer of a later request: the other theorems are the witnesses.
* **C57** Messages sent through a virtqueue arrive unchanged. The contents are proved for every history. failed_send_leaks proves that a send that fails half way never gives its blocks back.
* **C58** Threads that share the buffer of an RPC connection do not disturb each other. Mutual exclusion and results are proved in full. Liveness holds only until the first error: failed_call_blocks_all proves that the lock is never released after a failed call.
* **C59** A registered virtqueue channel is found again by its id, role and name. Lookup by id and role is exact for every history. Lookup by name is proved when the ids in use are 0..k-1 and names are not longer than the comparison; not_namesFound and the witnesses before it prove that the lookup otherwise dereferences a null name, misses the last id or confuses long names.
* **C60** Each item of the command line names exactly one entity, and files are written in order. resolve_iff is the exact condition, for every assembly and item. Items with negative indices or with parts after the end are accepted too, which the last two theorems prove.
* **C61** Allocation of DMA memory succeeds whenever there is enough contiguous free memory. Proved for requests larger than a list node and runs with room for the scan from the end of the region. start_of_region_missed and small_request_fails prove that otherwise the allocation can fail although the memory is there.
* **C62** Initialisation functions run in order and every interface gets started. The order is proved for every component and schedule; that everything starts is proved for plain instance names, and that no thread returns is proved without a fault handler. fault_handler_lost: an interface thread can take the turn of the fault handler. nested_passive_hangs: with a passive interface in a nested instance the control thread never runs.
* **C63** A wrapped dataport pointer denotes the same byte in every component that shares the dataport. Proved for every layout without device dataports of a literal size (or with addresses shorter than offsets), receivers at least as large as the offset, and, for the same pointer, one dataport per connection. below_mmio_accepted and shared_pointer_lost: the comparison in device dataports is signed, so they accept pointers below them. unwrap_unchecked: any address can be forged. other_mapping and smaller_receiver are the remaining exceptions.
* **C64** The memory map that is printed for a fault is complete, ordered and marks the fault. Exact for every list of proper regions with different ends. inverted_aborts and same_end_aborts prove that otherwise the printing fails an assertion.
* **C65** Every device that has a driver is initialised exactly once, drivers that defer are called again. Proved, down to the linked lists, where the allocator does not fail and for the first call. lost_device: a device is lost silently where there is no memory for a list node. no_memory_aborts, second_call_faults: what happens without memory for a token and in a second call.
* **C66** A range of memory is accepted by madvise, mincore, mlock and munlock exactly if it is mapped. Success implies mapped for every range; the converse holds except for ranges that end exactly where mapped memory ends, which the strict comparison refuses (end_refused, whole_stack_refused). Dataports and other shared buffers are not in the table.
* **C67** select waits for the sockets of the descriptors it is given and reports exactly those that are ready. Holds if socket numbers do not coincide with descriptor numbers and the sets hold only sockets; otherwise the translation in place confuses descriptors (wrong_descriptor, stdin_confused), and NULL sets leave the previous sets in the shared memory (stale_sets).
* **C68** System calls on a descriptor reach its socket with the data of the caller. Every call of the server uses the socket of the descriptor, for every history. Errors are not all passed on: read_error_faults, socket_error_hidden, write_error_positive; long addresses overrun the shared buffer (long_address_faults).
* **C69** Cache maintenance of device memory works on exactly the bytes that are asked for. Every byte of the range is named by the offsets passed, and no other; but the kernel reads the second offset as exclusive, so the last byte of every page-wise range is left out unless it shares a line (last_byte_left_out), one byte is refused (one_byte_refused) and an unknown dataport is reported as success (unknown_ignored).
* **C70** An access through an I/O port interface reaches the port that it names. Holds with assertions enabled and regions that do not overlap. Without assertions the port operations are never initialised (release_dead); ports are cut to 16 bits in the library (ports_alias); errors are read as 0 (error_reads_zero).
* **C71** An error is handled by the handler that is registered for it. Holds for every history in which the responsible handler is not NULL; null_common_faults: registering NULL for the component does not take the handler back.
* **C73** Messages of a message queue arrive once, in order and unchanged. Transfer is proved for every interleaving. Registration accepts negative numbers (negative_number_faults), empty messages (empty_messages_fault), memory without a block (no_blocks) and different sizes at both ends (sizes_differ). The rings of libvirtqueue are used by contract.
* **C74** Every packet of the debugger is executed exactly once, unchanged. Proved for every history and every packet of up to 507 bytes without zeros. zero_byte_lost: data with a zero byte is cut or refused; long_reads_outside: longer packets read outside the buffer; no_digits_accepted: a checksum that is no number counts as zero.
* **C75** The debugger reads and writes exactly the memory it names. Proved for addresses in the lower half, lengths that read the same in decimal and hexadecimal, and ranges in mapped memory. Otherwise: lengths are read as decimal (long_read_wrong), addresses are cut (high_address_wrong), the last bytes of a page are refused or hang (end_refused, across_hangs), writing to unmapped memory hangs (unmapped_hangs), and binary writes ignore, cut or overrun (the binary_ theorems, colon_and_escape_wrong).
* **C76** The debugger reads and writes exactly the register it names, and breakpoints are those it set. Reading is proved in full. Writing one register is right if the stack after an array without terminator does not begin with a digit (stack_digit), and pretends to write others (write_ignored); writing all registers never changes one and can overflow (general_write_ignored). Breakpoints are right for one thread and the lower half of the addresses (stale_breakpoint, high_breakpoint).
* **C77** A stopped thread stays stopped until the debugger resumes it, and then runs as told. Proved for every interleaving with a debugger that resumes only what it was told has stopped, for continuing without or after steps and for steps that hit no breakpoint. A step that hits a breakpoint leaves the kernel stepping (continue_still_steps, continue_counts), as does a stop of another thread (other_thread_breaks_step); exceptions of the processor overrun an array (exception_breaks); the remaining theorems are further disagreements.
* **C78** Attribute values reach the generated code unchanged. Proved for all types and values whose integers are in range and whose strings have no quote, backslash or end of line; string_right_iff: no other string is kept; overflow_changed: no other integer is. Structs are defined once and before use. The dimensions of arrays in structs are those of the first value only (second_measured_wrong, elements_measured_wrong), structs in structs in arrays stop the tool (nested_fails), and so do arrays without a value (unset_array_fails).
* **C79** Hardware interrupts reach their handler. Proved for all schedules after a registration that no interrupt disturbs, and for components with a handle function. An interrupt during a registration is lost for good (registration_lost), calls a null pointer (registration_null, unregistration_null) or passes the wrong data (registration_stale); an interrupt that nobody handles is never delivered again (ignored_once), nor is one with both handlers (both_conflict).
* **C80** The configured interrupt is the one that is allocated and found. Handler and entry are exactly those the settings describe, and errors are true; a driver finds the entry, except that the core of an ARM interrupt is not in the entry: a request for that core is not found (core_forgotten).
* **C81** Events of an IOAPIC interrupt are delivered once. Callbacks are called at most once and all those registered are called, poll and wait succeed at most once per wake-up, for all schedules. Disagreements: an interrupt that went to a callback is also given to a thread that polls (twice), arguments may be those of another registration (stale_argument, argument_overwritten; argument_right_partial says when not), a thread may sleep forever (lost_wakeup; woken_partial), and threads that only poll or wait get one interrupt in all (never_again).
* **C82** A declaration becomes the object that was written. Proved for the whole language (declaration_partial, file_partial), and that no refusal inside a declaration is lost (mistakes_stop). Disagreements: a composition or configuration given by name is dropped silently in a component (named_parts_dropped), a configuration by name in an assembly too (named_configuration_dropped), a composition by name in an assembly, an empty struct, a query with only a lookup, and two compositions are assertion failures rather than parse errors.
* **C83** Thread settings reach the thread they are written for. Proved for all assemblies whose interface names do not read like a part of max_priority. Disagreements: max_priority is also the priority of an interface called max (max_confused), and x_max_priority both the maximum priority of x and the priority of x_max (suffix_confused).
* **C84** Every thread has its own stack and IPC buffer, fenced by guard pages. Stacks are as documented exactly if their size is a whole number of pages (stack_partial). Disagreements: other sizes are rounded down, so the first push faults (odd_stack_faults); threads of different instances, which may be grouped into one address space, can have the same names (names_shared).
* **C85** Components that share a dataport share exactly its memory, with the configured rights. Memory: proved in full. Rights: proved except for the empty setting, which gives all rights instead of none (empty_access_gives_all); letters in another order are refused (order_refused).
* **C86** Every register of a device is mapped. Decoding and mapping are exact. Disagreements: the end of a register that crosses into one more page than its size needs is not mapped (straddling_unmapped; covered_partial is the exact condition); large frames are chosen although the address is not aligned to them (large_frame_unmappable), and so are unaligned addresses of settings (unaligned_accepted); ranges that wrap around are translated (translate_wraps).
* **C87** A component that makes kernel objects itself is told of every resource it was given. Proved for pools of at least a page. Disagreements: smaller untyped memory is enumerated as a null capability (small_untyped_null); two attributes that differ in leading zeros name one pool (repeated_pool_shared); the CNode size is twice what the template says it computes (guess_too_large).
* **C88** A device resource found by address or number is the one asked for. Proved for sensible settings. Disagreements: a region at the end of the address space is never found (top_region_unreachable); memory given at two sizes is found at the wrong size (mixed_sizes_confused); ports in two adjacent ranges are refused (adjacent_ports_refused); PCI numbers are not checked (illegal_device_found) and shared with ARM I/O spaces (smmu_found_as_pci); boot information longer than a page is read from beyond the page (bootinfo_overrun); a negative length copies everything (bootinfo_negative).
* **C89** Physical addresses, capabilities and cache maintenance of DMA memory are right. Disagreements: the physical address of an address outside of the pools is computed from a null pointer (outside_crashes); with large frames a pool that is not a multiple of them is refused instead of rounded up (large_pool_refused); a pool of a component inside another one is refused by the compiler (nested_pool_refused); cache maintenance of a buffer in more than one frame does nothing (spanning_not_maintained).
* **C90** The statistics of the DMA allocator are what happened. Proved for histories with one pool. Disagreement: a second pool replaces the size of the heap, takes away from the live bytes and resets the minima (second_pool_forgets).
* **C91** Synchronisation objects and pools of a component are its own and are what is configured. Disagreements: a declared name that the template uses itself shares the object (semaphore_shared, mutex_shared); pools of endpoints or untyped objects and of notifications never compile together, and the former do not compile with the constants that the library expects (pools_do_not_compile, endpoints_do_not_compile); a size with a leading zero is read in two ways (octal_size).
* **C93** Boot information reaches the component that asks for it. Disagreements: a piece of more than one page is copied from beyond its frame (large_piece); register_fill_frame leaves the end of a symbol that is not a whole number of pages without memory (tail_not_backed).
* **C94** A component in CakeML gets calls as its clients make them. Disagreements: a result that does not fit its type is cut (wraps_silently), a string that is too long for the buffer is cut (long_string_cut).
* **C95** A component in CakeML stays within its buffers and refuses what is not a call. Disagreements: a message that is too short is read together with the end of an earlier one, of another client (short_message_accepted); the end of the last word of a reply is what was in the IPC buffer (padding_leaks).
* **C96** Files of a component in CakeML. Disagreements: opening for reading reports success and failure the wrong way round (open_in_wrong); the size of the array is not checked (read_overruns).
* **C97** Arguments and start of a component in CakeML. Disagreement: getting an argument writes one byte more than its length (terminator_behind).
* **C98** Host and domain name are those that were set last. Disagreements: the length is ignored (length_ignored), and a name without terminator is read beyond its end (reads_beyond).
* **C99** System calls reach the functions that implement them, and the clock tells the time. Disagreements: sigaction is never installed (sigaction_missing), the names cannot be set with recent standards (sethostname_missing); the clock wraps (clock_wraps).
* **C100** Every reference of a specification becomes the declaration that it means. Disagreement: what an assembly declares in a composition that it takes by name cannot be used by other assemblies (composition_by_name_hidden).
* **C101** Queries in settings are replaced by their answers. Disagreement: a query without arguments, which the grammar allows, is an internal error (no_arguments_fails), and so is a result that lacks a key that is asked for (nothing_found_fails).
* **C102** References may go forward and mean the same declaration, wherever it is written. Disagreement: a reference through an instance of a later component whose composition is given by name fails an assertion (composition_by_name_asserts); with compositions in compositions an end can get the interface of another instance of the same name than it is for (mixed_end).
* **C104** The generated formal description of an assembly says what the assembly is. False where dataports or events are exported (they stay in the description), where an assembly has a name (a lemma mentions one that is not defined) and where dataport types such as Buf(4) and Buf_4 meet (one name twice): proved as disagreements; the partial theorems leave these out.
* **C105** Components, methods and parameters that may not be declared are refused. What is accepted is settled exactly; partial because a device with a binary semaphore is accepted although other locks are refused: proved as a disagreement.
* **C106** Every operation of a component has a C name of its own. False: names built with underscores can meet (interface a with method b_c, interface a_b with method c; reserved operations; attribute d_size; dataport run), dataports can be named by keywords, and a parameter x_sz meets the size of an array x: proved as disagreements; names_once_partial asks that names be kept apart.
* **C107** Time stamps of a connector are those that were taken. False in two ways, proved as disagreements: an entry of the last, incomplete iteration is read outside the buffer where the number of points does not divide 4096, and without CONFIG_CAMKES_CONNECTOR_TIMING the names that are defined are not those that are declared. The rest is proved for all histories.
* **C108** The template linter accepts exactly the templates whose directives are nested. lint_iff_partial is for templates whose blocks begin and end where they seem to. False: a block without an end at the end of the file is accepted, as are a second else, elif after else and break in a macro in a loop; a dictionary in a dictionary and a named endmacro are refused: proved as disagreements.
* **C109** A server with several clients executes the method that was called and answers with its results. False in three ways, proved as disagreements: clients of several types of which two share one, and types with a method of the same name, do not compile; with an error handler that ignores errors, a request with an invalid method index is answered with the rest of the last reply, whoever that was for. compiles_iff says exactly what compiles, and served_partial holds for it.
* **C110** An error is reported at its place, with the line marked. False in two ways, proved as disagreements: on the last line of a file without a line feed the carets are behind the line, and a syntax error at a token with an apostrophe is reported without a line and in the main file. The rest is proved; columns are those of the preprocessed line.
* **C111** Instances that share an address space are linked together, and a direct call reaches the connected procedure. False in three ways, proved as disagreements: a hardware component in a group with one software component leaves an image that is never linked; connections a and a_b with methods b_c and c clash; of instances a and a_b with interfaces b_c and c one is left out. The rest is proved.
* **C112** Every instance is built from exactly the generated files that it needs, each made from its own part of the assembly. False in four ways, proved as disagreements: underscores in names make two ends share a file; two CakeML ends share connectorScript.sml; templates of the user with the same file name share a file; a side without a template is accepted, with the option SOURCE as its template. The rest is proved.
* **C113** A change that matters is noticed by the build. False in four ways, proved as disagreements: a new file in an earlier directory of the import path, or of the templates, changes the result unnoticed; a file whose name has a blank is not found in the rule; the file of a query that is not used is read but not reported, and can make a run fail. The rest is proved, for a preprocessor that reports what it reads.
* **C114** The generated statement of integrity labels every object with its group. False in six ways, proved as disagreements: the subject of an admissible policy is an instance and not its group; ASIDs are labelled with the instance and not with its group; additional edges are stated without groups; an instance of a group with its own label is split over two labels; a label that is no address space makes the lemma speak of objects that do not exist; instances called root_untyped_... get no labels. The rest is proved.
* **C115** The formal behaviour of the glue code carries calls as the interface says. False in six ways, proved as disagreements: parameters passed by reference are left out; an array is described as one value; two methods, or two components, with underscores in their names can get the same names; an instance with two ends on one side of a connection has no channel for the second; connections of memory or events from several ends are refused. The rest is proved.
* **C116** The build is what the build scripts ask for. False in several ways, proved as disagreements: the preprocessor cannot be switched off; directories for it that come too late are lost, and declarations of components that come too late count in part; two flags for the linker are glued together; a language given twice is none; an extension of an instance drops some of its arguments; names of targets can clash; what belongs to no keyword is dropped; the call that adds existing directories does not see relative ones. The rest is proved.
* **C117** The pre-processor of theories changes only whitespace. False in several ways, proved as disagreements: text that is kept back at the end of the file is lost without a warning; a space that is removed can open a comment; text in quotes is changed; of several spaces between brackets some are left; an indentation that is no number ends the tool; a comment in text that is wrapped becomes a directive; long words are split. The rest is proved, for files without hidden directives.
* **C119** Interfaces are registered with the properties they are given. False, proved as disagreements: the loop that should count the properties counts addresses up to the end of memory, so no interface with a property is ever registered, and with enough memory the call reads through NULL; where a registration succeeds, searches are given NULL for the properties; if memory runs out, the call frees what was not allocated or leaves the array allocated. Proved: registration without properties, and cleaning up before the first property is copied.
* **C120** The report of a fault says what happened, where and in which thread. False in corners, proved as disagreements: for a cause the code does not know the label is shown in its place; an unknown system call is reported without the instance, and for a thread without a name the handler itself stops; on riscv the number of the thread is cut to 32 bits; for most capability faults the phase is not shown. The rest is proved, for numbers that fit into an int.
* **C121** The debugger's serial port is set up whatever it was before, and what is printed goes out. False in corners, proved as disagreements: the queue is never used (it is switched on only if it is still on, after it was switched off); a byte about to be sent during the setup is not counted, so that the first byte printed may be lost; that a packet had begun is not forgotten. The rest is proved; printing from any state in which the program's count covers what the port still holds, which the setup establishes if nothing was about to be sent or it was in the queue.
* **C122** Each interrupt of a device of the device tree reaches its own handler. Delivery, for every schedule, is proved for handlers that acknowledge before they return. For handlers that acknowledge later it is false, proved as a disagreement: they are given a pointer to a variable of the loop, which holds the number of another interrupt by then.
* **C123** A component that makes kernel objects is told where its memory is. Proved unless a memory is at the physical address 0, which is taken for an error (proved as disagreements): the component is stopped, or, if errors are discarded, the page stays in the slot and all further memories seem to be at 0.
* **C125** The C code generated for remote procedure calls is well typed. Proved for methods whose parameters' names do not end as the generated code's own names do, and for methods and interfaces not called p, p_... or (with a result) ret. Otherwise names are declared twice or hide the implementation (proved as disagreements). The parts of the connector templates around the calls are not modelled.
* **C126** A connection gives each end the capabilities of its role, and nothing else. Wiring, separate channels and the absence of grant rights hold in full. Isolation needs that no connection is named like another one followed by _userspace_buffer; direction excludes senders of the queue connector and receivers of the bind connector; badges need that no two clients in one address space have the same interface name (bind: that there is one sender per address space). The violations are proved as disagreements.
* **C127** The handler of a fault is told which thread it was. Fault handlers and the debugger are told the thread in full. The exception for the thread that serves the debugger is made for a name that no thread has (delegate_faults_to_debugger), the handler of memory faults finds it only by chance (memory_told_partial, memory_confused), and the debugger writes messages of more than four words beyond its array (message_overrun). Thread names are taken to be different, and options.realtime is not modelled.
* **C128** The checker of dependencies reports what is missing. The report and the status are proved in full where the programs asked can be run, imports fail with ImportError if at all, and the version of pylint has one digit after the point. Otherwise versions are compared as decimal numbers (newer_pylint_refused: 1.10 is taken to be older than 1.4), and a module that cannot be imported for another reason ends the checker without a verdict (broken_module_no_verdict).
* **C129** Both ends of a queue in shared memory see the same queue. Proved in full where the rings fit in the memory and each end is set up once. Memory that is too small for the rings is not refused, and the first buffer is then outside of it (short_memory); two senders for one channel hand out the same buffer (same_buffer_twice); the error of a poll without a connection is a number that a poll function may also answer (poll_ambiguous).
* **C131** The wrapper of the static analyser hides only the warnings that the source marks. That nothing else is hidden is proved in full, and that what is marked is hidden for warnings in the form of the analyser's guide about files without a colon in the name. False otherwise, proved as disagreements: warnings in the form that the documentation of the wrapper shows are never hidden, what is written behind the last line feed is lost, and blanks behind commas, second markers in a line and file names with blanks are not understood.
* **C132** The I/O operations of a component are set up completely or the caller is told why not. Success, its conditions and the separation of the structures are proved. False, proved as disagreements: a set-up that fails late keeps its record of mappings, the caller gets 1 instead of the code of what failed, and a mapping whose record found no memory makes its unmapping an error.
* **C133** An import leads to the file that its text names, however files are spelled. Proved for trees without symbolic links and paths that do not begin with exactly two slashes. False otherwise, proved as disagreements: two slashes at the start make a second spelling, so that a file is read twice; behind a symbolic link '..' leads elsewhere than for the operating system; and paths through directories that do not exist are accepted.
* **C134** To the program that it runs, an instance is a process with threads of its own. Numbers, storage, order of output and the arguments at the start are proved for all schedules. False, proved as disagreements: exit stops only the thread that calls it; threads of one interface share their name; taking the function for output away while another thread prints calls a null pointer; output that goes nowhere is counted as written; characters above 127 are passed as negative numbers where char is signed; buffers of 2 GiB overflow the loop variable; the size of a program header is that of 32-bit machines.
* **C135** A server in CakeML answers each of its clients, whatever its methods wait for. The agreement with the server in C is proved for all histories, and that answers reach their clients for methods that wait only in functions that protect the reply capability. False, proved as disagreements: a method that waits with CakeML's own function loses its client, and so does one whose reply capability could not be saved; the server does not look at the error.
* **C136** The tools say what is wrong, as loudly as they were asked to, and their checks change nothing else. Which messages are seen, the exit codes and the exact warnings are proved. False, proved as disagreements: a base name may end in a newline; every array of strings or integers with a proper value is warned about; fractions and truth values pass for integers. Asked to be quiet, the tools also hide the error that stops them.
* **C137** A server uses the system calls of its kernel, and on a real-time kernel no wait loses a client. All proved for servers in C, but for two things, proved as disagreements: a client whose request is dropped for an error is never told, on either kernel; and on a kernel that is not real-time a passive server says that it is ready before it waits. Components that might block on such kernels are C54.
* **C138** A dynamic component is told the truth about its initial capabilities. Proved for the thread that made its description last, and for identifiers on x86 and ARM. Proved as disagreements: the description is shared, so a second thread that makes one changes what the first is told; on RISC-V assigning an identifier from a pool has no defined result; the number of cores is that of the machine, though control is given for at most one of them; there are no functions for frames and pages of the program.
* **C139** Every end of a standard connection gets the code of its connector. Proved for all standard connectors but seL4RPCEvent and for instances that are not single_threaded and have no templates of their own. Proved as disagreements: seL4RPCEvent is declared and has no code, so that its assemblies do not build; the setting single_threaded asks for templates that the tool does not have; a connector of a user without a template for a side is not reported, the runner is asked for a template named SOURCE.
* **C140** Settings of cores, heap and capability space take effect or are refused. Affinity is proved for settings of the whole instance that are not negative, with a default that the machine has; the size of a CNode for settings of the address space other than 0. Proved as disagreements: the affinity of a single thread, the default and negative numbers are not checked, and the component is told the core of the instance though its control thread has another; an instance in a group that sets the size of a CNode under its own name, or an instance that sets it to 0, is told that size but does not get it.
* **C141** Theories for verification are made once, under the names by which they refer to each other. That the names are accepted is proved for assembly files whose name begins with a letter. Proved as a disagreement: any other name, such as one that begins with a digit or an underscore, is made into a name that the tool refuses, or into none, so the theories are not made though the build meant to mangle it into a valid one.
* **C142** A struct that is written in place gets a name of its own. That names are not shared is proved if the user does not declare a struct with a name of the form that the tool makes up. Proved as a disagreement: such a name is not refused; then both structs have it and the header defines only the first.
* **C144** The check of leading assertions finds type checks of the wrong thing. Proved for Python 2 and the two idioms that the check knows. Proved as disagreements: with Python 3 the check is an exception for every file with a function that has an argument; with Python 2 it is one if a comparison with None is followed by a call of a method.
* **C145** In a method, the identity of the sender is that of the caller. Told apart if the configured badges are different. Proved as disagreements: clients with the same configured badge are not told apart, and a client with the configured badge 0 is not told from none.
