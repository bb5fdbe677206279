{"id": "C01", "title": "Cleaning a code block removes the annotations and nothing else", "statement": "For every code-block body, the cleaned program returned by the annotation parser has the same lines in the same order, and each line is the source line with exactly the recognised annotations deleted: a leading '#' (hidden line), the backslash of a leading '\\#', or, on other lines, every leftmost `[..]`, `(..)`, `{..}` marker. No other character is added, dropped or reordered, and putting the deleted pieces back gives the original line.", "quantifier": "every string given as block body", "why_tests_cant": "Only one four-line example is tested; the claim ranges over all texts, all marker placements, unbalanced markers, markers next to each other and multi-byte text.", "anchors": ["crates/mdbook-aquascope/src/annotations.rs: parse_annotations"]}
{"id": "C02", "title": "A state marker points at the place in the cleaned program where the author wrote it", "statement": "For every code block, each interpreter state location reported for a `[]` marker is the offset, in the cleaned program, of the text that followed the marker: the cleaned program split at that offset gives exactly the cleaned text before and after the marker.", "quantifier": "every block body and every marker in it", "why_tests_cant": "Offsets accumulate over all earlier lines, markers, hidden and escaped lines; any off-by-one shows only on particular combinations, and byte offsets versus character offsets differ only on non-ASCII text.", "anchors": ["crates/mdbook-aquascope/src/annotations.rs: parse_annotations, MdCharPos", "frontend/packages/aquascope-editor/src/editor-utils/interpreter.tsx: filterSteps"]}
{"id": "C03", "title": "Hidden and focused lines are numbered correctly", "statement": "For every code block, the hidden lines are exactly the 1-based numbers of the lines that start with '#', in increasing order; a line is focused for the stepper (boundaries) iff it is not hidden or escaped and carries a stepper marker whose options include focus (a boundaries marker); the path matchers recorded for a line are exactly those given by the markers of that line, in order.", "quantifier": "every block body", "why_tests_cant": "The line numbering must be right for every mixture of hidden, escaped and annotated lines.", "anchors": ["crates/mdbook-aquascope/src/annotations.rs: parse_annotations, StepperAnnotations, BoundariesAnnotations"]}
{"id": "C04", "title": "Block discovery never overlaps, never reorders and never leaves the document", "statement": "For every Markdown document, the ranges returned for Aquascope blocks are within the document, in increasing order and pairwise disjoint; the text of each range begins with \"```aquascope,\" and ends with \"```\"; and scanning finds a block at every position, outside earlier blocks, where one parses.", "quantifier": "every document", "why_tests_cant": "Overlaps or missed blocks depend on where fences sit relative to each other; documents are unbounded.", "anchors": ["crates/mdbook-aquascope/src/block.rs: AquascopeBlock::parse_all, AquascopeBlock::parse"]}
{"id": "C05", "title": "A printed block parses back to its operations, options and code", "statement": "For every list of operation names and options whose text avoids the delimiter characters and every program text without a fence, the block written as ```aquascope,op+op,key=value,flag NEWLINE code ``` is recognised and yields exactly those operations, those options in order (a bare flag has the value \"true\"), and the annotation parse of the trimmed code.", "quantifier": "every non-empty operation list, option list and program text within the delimiter-free fragment", "why_tests_cant": "A round-trip law over unbounded lists and strings.", "anchors": ["crates/mdbook-aquascope/src/block.rs: AquascopeBlock::parse, parse_sym"]}
{"id": "C06", "title": "Inline permission tags are rendered exactly or rejected", "statement": "For every document, the inline tags @Perm{p} / @Perm[opt]{p} found are leftmost, disjoint and in order; each is replaced by the HTML of its permission letter and decoration when p is one of read, write, own, flow and opt is one of gained, lost, missing; any other permission name is reported as an error and no replacement is produced for it.", "quantifier": "every document", "why_tests_cant": "Ranges over all texts, including tags split over lines, nested brackets and unknown names.", "anchors": ["crates/mdbook-aquascope/src/permissions.rs: parse_perms, VALID_PERMISSIONS"]}
{"id": "C07", "title": "Replacements for one chapter never overlap", "statement": "For every chapter, the text ranges replaced by Aquascope blocks and by inline permission tags are pairwise disjoint, so that applying them does not corrupt the page.", "quantifier": "every chapter text", "why_tests_cant": "Needs every relative position of the two independent scanners.", "anchors": ["crates/mdbook-aquascope/src/preprocessor.rs: AquascopePreprocessor::replacements", "crates/mdbook-aquascope/src/block.rs: parse_all", "crates/mdbook-aquascope/src/permissions.rs: parse_perms"]}
{"id": "C08", "title": "The result cache behaves like a map keyed by the block", "statement": "For every history of lookups, stores, saves and reloads, a lookup returns the response stored last for that block (and nothing if none was stored), as long as no two blocks in the history hash alike; changing only the annotations of a block does not change its entry.", "quantifier": "every finite history of operations and every hash function without collisions on the history", "why_tests_cant": "Histories are unbounded and mix persistence with lookups.", "anchors": ["crates/mdbook-aquascope/src/cache.rs: Cache::get, Cache::set, Cache::save, Cache::load", "crates/mdbook-aquascope/src/annotations.rs: Hash for AquascopeAnnotations"]}
{"id": "C09", "title": "A crash while saving the cache never yields wrong cached results", "statement": "Whatever happens to the process while the cache file is being rewritten (it stops after any file-system call, with any prefix of the data written), the next start succeeds and sees either the complete old contents, the complete new contents, or an empty cache.", "quantifier": "every old and new contents and every crash point", "why_tests_cant": "Crash points cannot be enumerated by a unit test.", "anchors": ["crates/mdbook-aquascope/src/cache.rs: Cache::save, Cache::load"]}
{"id": "C10", "title": "Rebuilding an unchanged book leaves the cache file unchanged", "statement": "If every block of a build is already in the cache, saving at the end of the build leaves the file byte-for-byte as it was.", "quantifier": "every cache contents and every list of blocks all cached", "why_tests_cant": "The existing test covers one book with one block.", "anchors": ["crates/mdbook-aquascope/src/cache.rs: Cache::set, Cache::save", "crates/mdbook-aquascope/src/preprocessor.rs: process_code, save_cache"]}
{"id": "C11", "title": "Rendering blocks in parallel gives the same result as rendering them one by one", "statement": "For every interleaving of the threads that render the blocks of a chapter, each block gets the response that analysing it alone would give, provided the analysis is a function of the block and no two blocks hash alike; the cache afterwards contains exactly the old entries plus the entries of the rendered blocks.", "quantifier": "every schedule of every finite set of threads", "why_tests_cant": "Schedules cannot be enumerated by tests.", "anchors": ["crates/mdbook-aquascope/src/preprocessor.rs: process_code, replacements"]}
{"id": "C12", "title": "A failed analysis is neither cached nor shown as a success", "statement": "For every block, a response is produced (and cached) only if every requested operation exited successfully within the time limit and its JSON answer is not an error: not an object with an Err entry, not an array with an element that has an Err entry, not of type BuildError. In every other case the build of the chapter fails and the cache is unchanged.", "quantifier": "every block, every list of operations, every outcome and JSON answer of each", "why_tests_cant": "Combinations of outcomes over several operations and every shape of JSON answer.", "anchors": ["crates/mdbook-aquascope/src/preprocessor.rs: run_aquascope, process_code"]}
{"id": "C13", "title": "Step grouping keeps exactly the last state of each maximal run", "statement": "For every execution trace and every mapping of locations, the grouped trace consists of the last step of each maximal run of consecutive mapped steps whose top frame has the same mapped location, in order; consecutive displayed steps therefore always have different top locations, and steps with an unmappable frame are left out.", "quantifier": "every trace and every partial mapping", "why_tests_cant": "Ranges over all traces and all mappings; one three-step trace is tested.", "anchors": ["crates/aquascope/src/interpreter/mapper.rs: group_steps"]}
{"id": "C14", "title": "Grouping loses neither the outcome nor the final state", "statement": "For every trace and mapping, grouping preserves the result of the execution, and if the last step is mappable then the last displayed step shows exactly its frames (with mapped locations) and heap. Grouping an already grouped trace by the same locations changes nothing, and grouping in two stages (MIR to HIR to source) shows the same states as grouping once by the composed mapping when the second mapping is total.", "quantifier": "every trace and every pair of mappings", "why_tests_cant": "Two-stage grouping composes only under conditions that examples do not reveal.", "anchors": ["crates/aquascope/src/interpreter/mapper.rs: group_steps", "crates/aquascope/src/interpreter/mod.rs: interpret"]}
{"id": "C15", "title": "Long arrays are abbreviated faithfully", "statement": "For every array length n, the array shown has all n elements if n is at most 12, and otherwise exactly the elements 0..10 followed by element n-1; each element shown is the value read at its own index, reads happen in increasing order, and the first failing read is the one reported.", "quantifier": "every length and every element reader", "why_tests_cant": "Boundary lengths and every failure position.", "anchors": ["crates/aquascope/src/interpreter/mvalue.rs: Abbreviated::new, Abbreviated::map"]}
{"id": "C16", "title": "Every pointer drawn has a target in the same diagram", "statement": "For every memory state without pointer cycles, every pointer shown in a step refers to a heap cell that is present in that step's heap or to a variable recorded for that step; every heap allocation reached is shown exactly once, and two pointers into the same allocation refer to the same cell.", "quantifier": "every acyclic memory graph and every set of roots", "why_tests_cant": "Shapes of memory graphs are unbounded (sharing, nesting, order of discovery).", "anchors": ["crates/aquascope/src/interpreter/mvalue.rs: Reader::read_pointer, Reader::read", "crates/aquascope/src/interpreter/step.rs: build_heap, MemoryMap"]}
{"id": "C17", "title": "The path drawn for a pointer denotes the address it holds", "statement": "For every type layout and every address of a field or element inside it, the field/index path computed for the address leads, when followed through the layout, to exactly that address.", "quantifier": "every nesting of structs, tuples and arrays and every address", "why_tests_cant": "Layouts nest arbitrarily and include padding, reordering and zero-sized fields.", "anchors": ["crates/aquascope/src/interpreter/miri_utils.rs: AddressLocator::locate, locate_address_in_type"]}
{"id": "C18", "title": "Dangling-pointer labels identify the freed allocation", "statement": "Within one step, two dangling pointers carry the same label iff they point to the same freed allocation; and when the program stops on a use after free, the label reported with the error is the label that the pointer to that allocation carries in the last step shown.", "quantifier": "every sequence of reads in every step, and every failing access", "why_tests_cant": "Labels depend on the order of discovery across the whole run.", "anchors": ["crates/aquascope/src/interpreter/step.rs: remap_alloc_id, build_heap, beautify_error", "crates/aquascope/src/interpreter/mvalue.rs: read", "frontend/packages/aquascope-editor/src/editor-utils/interpreter.tsx: ValueView"]}
{"id": "C19", "title": "A variable is shown as moved exactly while it is moved out", "statement": "In every step, a variable of a frame is marked as moved iff its value was moved out by that activation of the function and it has not been assigned again since; moves of one activation are never shown in another.", "quantifier": "every execution: every interleaving of calls, returns, moves and assignments", "why_tests_cant": "Histories with recursion, loops and re-initialisation are unbounded.", "anchors": ["crates/aquascope/src/interpreter/step.rs: MovedPlaces, handle_moves, collect_moves, build_frame"]}
{"id": "C20", "title": "The trace is a complete, ordered record of the local execution", "statement": "For every execution that terminates, the recorded steps are in execution order, one for every machine step after which some function of the user's crate is on the stack; each recorded step has at least one frame, the frames are those of the user's crate in stack order, and the result is Success iff the machine finished without an error.", "quantifier": "every terminating run of the machine", "why_tests_cant": "Runs are unbounded; frames of foreign functions appear and disappear at any time.", "anchors": ["crates/aquascope/src/interpreter/step.rs: VisEvaluator::eval, step, build_step, local_frames"]}
{"id": "C21", "title": "A slice pointer covers exactly the elements of the slice", "statement": "For every allocation of equal-sized elements and every slice pointer into it with length n, the drawn range starts at the first element of the slice and has n elements.", "quantifier": "every element size, offset and length", "why_tests_cant": "Wrong only for particular element sizes and for empty slices.", "anchors": ["crates/aquascope/src/interpreter/miri_utils.rs: locate_address_in_type"]}
{"id": "C22", "title": "The permissions shown follow from the facts shown", "statement": "For every place and program point: the place has read iff it is live, not moved, not uninitialised and not refined by a mutable borrow; it has write (own) iff it has read, its type allows writing (dropping) and no borrow refines it. In particular write or own without read is impossible, and ignoring liveness differs only for dead places.", "quantifier": "every combination of facts", "why_tests_cant": "The decision table is small but the claim is about all of it, and about being monotone in each fact.", "anchors": ["crates/aquascope/src/analysis/permissions/mod.rs: PermissionsData::permissions, permissions_ignore_liveness"]}
{"id": "C23", "title": "A path is reported moved iff a move reaches the point without re-initialisation", "statement": "For every control-flow graph and set of facts, a path is reported as moved on entry to a point iff there is an execution path from a move of an overlapping path to that point on which no overlapping path is assigned in between.", "quantifier": "every finite control-flow graph, every set of moves and assignments, every overlap relation", "why_tests_cant": "Reachability through arbitrary graphs with loops.", "anchors": ["crates/aquascope/src/analysis/permissions/output.rs: derive_permission_facts"]}
{"id": "C24", "title": "A path is reported uninitialised iff it or a part of it may be uninitialised", "statement": "For every body, a path is reported as maybe-uninitialised on entry to a point iff some predecessor point leaves it, or one of its descendants, maybe uninitialised.", "quantifier": "every control-flow graph and every path hierarchy", "why_tests_cant": "The closure runs over arbitrary deep path hierarchies.", "anchors": ["crates/aquascope/src/analysis/permissions/output.rs: derive_permission_facts"]}
{"id": "C25", "title": "Borrows remove exactly the permissions Rust's rules say", "statement": "At every point, read is refined for a path iff a live mutable borrow overlaps it, and write and own are refined iff any live borrow overlaps it; hence whenever read is refined so are write and own, and a path no live borrow overlaps loses nothing.", "quantifier": "every body: every set of live borrows and overlap relation", "why_tests_cant": "Joins over arbitrary fact sets.", "anchors": ["crates/aquascope/src/analysis/permissions/output.rs: derive_permission_facts", "crates/aquascope/src/analysis/permissions/context.rs: is_mutable_loan"]}
{"id": "C26", "title": "The borrow or move named as the reason is a real one", "statement": "Whenever a path is shown as refined (moved) with a borrow (move) key, that borrow is live at the point and overlaps the path (that move reaches the point); and a key is shown whenever at least one exists. The choice among several does not depend on the order in which facts were produced.", "quantifier": "every set of facts", "why_tests_cant": "Several competing reasons per path and point.", "anchors": ["crates/aquascope/src/analysis/permissions/output.rs: insert_facts, compute"]}
{"id": "C27", "title": "Permissions never exceed what the declaration allows", "statement": "At every point the permissions of a path are included in its declared maximum: write only for mutable variables or through mutable references, own only where the type may be dropped, and a path behind a shared reference is never writable.", "quantifier": "every path: every projection chain over every declaration", "why_tests_cant": "Projection chains are unbounded.", "anchors": ["crates/aquascope/src/analysis/permissions/context.rs: max_permissions, is_path_write_enabled, is_path_drop_enabled, permissions_for_const_ty"]}
{"id": "C28", "title": "Merging permission states is a proper join", "statement": "Merging the permission states of two control-flow predecessors is commutative, associative and idempotent, reports a change iff the state changed, and yields for each place the permissions held on both sides.", "quantifier": "every pair of permission states", "why_tests_cant": "Algebraic laws over all states.", "anchors": ["crates/aquascope/src/analysis/permissions/utils.rs: JoinSemiLattice for Permissions, JoinSemiLattice for PermissionsDomain"]}
{"id": "C29", "title": "A boundary is reported as violated iff something it needs is missing", "statement": "For every boundary, a violation is reported iff one of the permissions the operation expects is not available or its flow is not allowed; each kind of use expects what the language requires: assignment needs read and write, shared borrow read, mutable borrow read and write, move read and own, copy and match read.", "quantifier": "every kind of use and every actual permission set", "why_tests_cant": "The claim is about the entire decision table and its consistency with the displayed icons.", "anchors": ["crates/aquascope/src/analysis/boundaries/mod.rs: PermissionsBoundary::is_violation, ExpectedPermissions", "frontend/packages/aquascope-editor/src/editor-utils/boundaries.tsx: PermStack"]}
{"id": "C30", "title": "Nothing is reported after the first error, everything is reported before it", "statement": "If the body has a compile error, every boundary located at or before the end of the first error is reported and those after it are dropped unless they carry a flow expectation; without errors all are reported, in order. Step rows that begin after the first error are dropped likewise.", "quantifier": "every list of boundaries and every error position", "why_tests_cant": "Boundary positions relative to the error range over all integers.", "anchors": ["crates/aquascope/src/analysis/boundaries/mod.rs: compute_permission_boundaries", "crates/aquascope/src/analysis/stepper/table_builder.rs: prettify_permission_steps"]}
{"id": "C31", "title": "The MIR use chosen for a source path is one of the candidates and is chosen deterministically", "statement": "For every list of candidate uses, the chosen one is a member of the list; one is chosen iff the list is not empty; a single candidate is always chosen; and among several, one of the expected local with the most specific place wins, the earliest on ties.", "quantifier": "every candidate list", "why_tests_cant": "Depends on relative order and projections of arbitrarily many candidates.", "anchors": ["crates/aquascope/src/analysis/boundaries/mod.rs: select_candidate_location"]}
{"id": "C32", "title": "Flow violations are reported exactly for disallowed flows", "statement": "For every constraint graph between regions, a flow from one region to another is accepted iff both are in the same component, or no local data would flow into a caller's region, every caller region that can flow into the source is declared to outlive every caller region of the target, and no dangling local flows out; the reported kind is the first of the three reasons that applies.", "quantifier": "every constraint graph, every set of declared relations", "why_tests_cant": "Reachability over arbitrary graphs.", "anchors": ["crates/aquascope/src/analysis/permissions/flow.rs: RegionFlows::flow_kind, flow_from_sources, compute_flows"]}
{"id": "C33", "title": "Declared outlives relations are closed under transitivity", "statement": "A caller region is considered declared to flow into another iff there is a chain of declared relations between them; the sets of caller regions and of local regions attributed to a region are exactly those that reach it through the constraint graph.", "quantifier": "every finite constraint graph", "why_tests_cant": "Chains are unbounded.", "anchors": ["crates/aquascope/src/analysis/permissions/flow.rs: flow_from_sources, contains_abstract, compute_flows"]}
{"id": "C34", "title": "Merging highlighted ranges loses and invents nothing", "statement": "For every list of ranges, the merged list covers exactly the same characters, is sorted, and no two merged ranges touch or overlap; merging twice changes nothing, and the result does not depend on the input order.", "quantifier": "every finite list of ranges", "why_tests_cant": "Interval merging goes wrong on nested, touching, equal or empty ranges in particular orders.", "anchors": ["crates/aquascope/src/analysis/mod.rs: smooth_elements, Bounded"]}
{"id": "C35", "title": "The highlighted region of a borrow lies between its first and last use", "statement": "For every borrow, the highlighted ranges are within the span from the start of the borrow to its end, contain every visible statement inside that span at which the borrow is live, and are sorted and disjoint.", "quantifier": "every set of live points and spans", "why_tests_cant": "Ranges over all span arrangements.", "anchors": ["crates/aquascope/src/analysis/mod.rs: key_to_spans, points_to_spans, construct_loan_info", "crates/aquascope/src/analysis/permissions/context.rs: construct_loan_regions"]}
{"id": "C36", "title": "Every move with a visible source location has a move point", "statement": "For every body, the reported move points contain an entry for every move whose source span is visible, and none for moves whose span is empty or synthetic.", "quantifier": "every set of moves and spans", "why_tests_cant": "Depends on the whole set of spans in the body.", "anchors": ["crates/aquascope/src/analysis/mod.rs: construct_move_info, is_span_visible"]}
{"id": "C37", "title": "Post-dominance is computed correctly for bodies with several exits", "statement": "For every control-flow graph, block b is said to be post-dominated by block d iff every path from b to every return passes through d and b can reach the returns.", "quantifier": "every finite control-flow graph with any number of returns", "why_tests_cant": "Graph property; multiple returns, infinite loops and unreachable blocks.", "anchors": ["crates/aquascope/src/analysis/ir_mapper/post_dominators.rs: AllPostDominators::build, is_postdominated_by"]}
{"id": "C38", "title": "The cleaned control-flow graph keeps exactly the real edges", "statement": "For every body, the edges of the cleaned graph are exactly the edges of the original graph between blocks that are neither clean-up nor unreachable, except the imaginary edges added by the compiler; moving from a location to its successor stays in the block until the terminator and then follows a unique cleaned edge.", "quantifier": "every body", "why_tests_cant": "All terminator kinds and block shapes.", "anchors": ["crates/aquascope/src/analysis/ir_mapper/body_graph.rs: CleanedBody"]}
{"id": "C39", "title": "The locations attributed to a source node have a genuine entry and exit", "statement": "For every source node for which locations are found, the reported entry block dominates every block of the node and the exit block post-dominates every block of the node; the entry (exit) location is the first (last) statement of the node in that block; the locations listed are exactly the gathered ones that are real; and nothing is reported iff nothing was gathered.", "quantifier": "every node, every set of gathered locations, every dominance relation", "why_tests_cant": "Sets of locations and graph shapes are unbounded.", "anchors": ["crates/aquascope/src/analysis/ir_mapper/mod.rs: IRMapper::get_mir_locations", "crates/aquascope/src/analysis/ir_mapper/mir_locations.rs: MirOrderedLocations"]}
{"id": "C40", "title": "A permission step says exactly how the state changed", "statement": "For every two permission states, a value is shown as gained iff it was absent before and present after, lost iff present before and absent after, unchanged otherwise; applying the step to the earlier state gives the later one; a step is empty iff the displayed permissions are equal.", "quantifier": "every pair of permission states", "why_tests_cant": "A round-trip law over all states and every field.", "anchors": ["crates/aquascope/src/analysis/stepper/mod.rs: Difference, ValueStep, PermissionsDataDiff"]}
{"id": "C41", "title": "Steps that undo each other cancel", "statement": "The step from state A to B and the step from B to A are recognised as symmetric; recognised pairs compose to no visible change of permissions; and the relation is symmetric.", "quantifier": "every pair of states", "why_tests_cant": "All field combinations.", "anchors": ["crates/aquascope/src/analysis/stepper/mod.rs: is_symmetric_diff"]}
{"id": "C42", "title": "Each source line shows at most one table, with each path once and in order", "statement": "For every set of step tables, the result has at most one display per source line; in it each path occurs at most once, rows are ordered by variable and then by projection depth, no table is empty, every row comes from a table on that line, and in the changes-only mode every row contains a change.", "quantifier": "every set of step tables", "why_tests_cant": "Arbitrarily many tables per line.", "anchors": ["crates/aquascope/src/analysis/stepper/table_builder.rs: prettify_permission_steps"]}
{"id": "C43", "title": "Combining the tables of a line cancels exactly symmetric pairs", "statement": "If at most two steps for a path fall on a line, the path is omitted iff the two are symmetric and otherwise shown with the first; the outcome for a path does not depend on other paths.", "quantifier": "every list of tables on a line", "why_tests_cant": "Depends on multiplicities and order.", "anchors": ["crates/aquascope/src/analysis/stepper/table_builder.rs: prettify_permission_steps"]}
{"id": "C44", "title": "No step table is lost when branches are merged into the result", "statement": "Every table computed for a segment, in any nesting of branches, is present in the final collection of tables.", "quantifier": "every nesting of collections and branches", "why_tests_cant": "Nesting depth and coincidence of end locations are unbounded.", "anchors": ["crates/aquascope/src/analysis/stepper/table_builder.rs: insert_branch, insert_segment, insert_collection"]}
{"id": "C45", "title": "The segments of a linear stretch are contiguous", "statement": "In every segmented body built from any sequence of insertions and branchings, consecutive segments of a collection join end to start: each begins where the previous one (or the branch before it) ended, so no location is skipped or shown twice.", "quantifier": "every sequence of builder operations", "why_tests_cant": "Sequences and nesting are unbounded.", "anchors": ["crates/aquascope/src/analysis/stepper/segmented_mir.rs: SegmentedMirBuilder::insert, open_branch, close_branch"]}
{"id": "C46", "title": "Scopes nest properly and every scope has a finite chain of parents", "statement": "For every sequence of scope openings and closings, each new scope's parent is the innermost open scope, the chain of parents of any scope is finite and ends at the outermost scope, and closing anything but the innermost open scope is rejected.", "quantifier": "every sequence of scope operations", "why_tests_cant": "Sequences are unbounded.", "anchors": ["crates/aquascope/src/analysis/stepper/segmented_mir.rs: open_scope, close_scope, next_scope, parent_scopes"]}
{"id": "C47", "title": "A segmented body is only delivered when it is complete", "statement": "Building is finished only if exactly one collection remains open; every segment, branch and collection identifier stored in the delivered body refers to an existing entry, so looking it up never fails.", "quantifier": "every sequence of builder operations", "why_tests_cant": "Identifier validity is an invariant over unbounded histories.", "anchors": ["crates/aquascope/src/analysis/stepper/segmented_mir.rs: freeze, finish_first_collection, get_segment, get_branch, get_collection"]}
{"id": "C48", "title": "Closing a branch closes the branch and all branches opened inside it implicitly", "statement": "After a branch is closed, none of its collections nor those of branches opened as its children remain open, each of them is recorded in its branch, and collections of unrelated branches stay open.", "quantifier": "every sequence of branch operations", "why_tests_cant": "Implicit children may be nested arbitrarily deep.", "anchors": ["crates/aquascope/src/analysis/stepper/segmented_mir.rs: open_child_branch, close_branch, branch_roots"]}
{"id": "C49", "title": "Searching for the next branching point terminates with the first one", "statement": "From any location, the search for the next switch returns the first block, following unique successors, that ends in a switch, if there is one, and reports none otherwise.", "quantifier": "every control-flow graph and start location", "why_tests_cant": "Graphs with cycles that contain no switch.", "anchors": ["crates/aquascope/src/analysis/stepper/segmented_mir.rs: find_next_switchint"]}
{"id": "C50", "title": "The first error of a body is the earliest one reported for that body", "statement": "For every sequence of diagnostics and bodies, the error reported for a body is the one with the smallest start among the errors (not warnings) emitted since that body's analysis began, and errors of other bodies are never reported for it.", "quantifier": "every sequence of diagnostics and analyses", "why_tests_cant": "Histories over several bodies.", "anchors": ["crates/aquascope/src/errors/mod.rs: track_diagnostic, track_body_diagnostics, get_span_of_first_error"]}
{"id": "C51", "title": "The playground server reports success iff the tool printed something", "statement": "For every request and every outcome of the tool, the answer is an error response iff the project could not be created, the source could not be written, or the command failed to run or timed out; otherwise it is a response carrying both outputs verbatim, with success iff the standard output is not blank; and the tool always sees exactly the submitted source.", "quantifier": "every request and every outcome of each external command", "why_tests_cant": "Every failure combination of the external commands.", "anchors": ["crates/aquascope_serve/src/container.rs: Container", "crates/aquascope_serve/src/server.rs: with_container"]}
{"id": "C52", "title": "A state marker in the editor shows the last state before it", "statement": "For every trace and every list of marks, each mark is paired with the latest step whose top function contains the mark and whose location starts before it; the pairs are shown in execution order, so the label of the k-th marker in the code is the label of the k-th diagram; and an unmatched mark is reported as an error.", "quantifier": "every trace and every list of marks", "why_tests_cant": "Ranges over all traces, marks and their interleavings.", "anchors": ["frontend/packages/aquascope-editor/src/editor-utils/interpreter.tsx: filterSteps, renderInterpreter"]}
{"id": "C53", "title": "The icon of a step row is chosen by the documented priority", "statement": "For every step row, the icon is that of the first changed fact in the order moved, read-borrowed, write-borrowed, live, uninitialised, and there is no icon iff none of these changed.", "quantifier": "every combination of changes", "why_tests_cant": "The whole decision table.", "anchors": ["frontend/packages/aquascope-editor/src/editor-utils/stepper.tsx: PermDiffRow"]}
{"id": "C54", "title": "At most one boundary stack is drawn per position, the first one", "statement": "For every set of analysis results, the boundaries drawn have pairwise different positions, every position with a boundary has one drawn, and it is the first reported for that position.", "quantifier": "every list of results", "why_tests_cant": "Arbitrarily many bodies and coinciding positions.", "anchors": ["frontend/packages/aquascope-editor/src/editor-utils/permissions.tsx: makePermissionsDecorations"]}
{"id": "C55", "title": "Pointer arrows always find their end point", "statement": "For every value shown and every pointer into it whose path is valid for the value, the element the arrow must point to exists in the rendered diagram.", "quantifier": "every value tree and every valid path", "why_tests_cant": "Value trees nest arbitrarily and include abbreviated arrays and zero-sized fields.", "anchors": ["frontend/packages/aquascope-editor/src/editor-utils/interpreter.tsx: PointerView, AbbreviatedView, AdtView, renderArrows", "crates/aquascope/src/interpreter/mvalue.rs: process_fields"]}
{"id": "C56", "title": "Exactly one analysis result per function body, in order", "statement": "For every crate, the permissions output is an array with one entry per function body in the order the bodies are found, each entry being the result or the error of that body; an error in one body does not suppress the others.", "quantifier": "every list of bodies and outcomes", "why_tests_cant": "Every combination of failures.", "anchors": ["crates/aquascope_front/src/plugin.rs: AquascopeCallbacks::after_expansion", "crates/aquascope/src/analysis/mod.rs: AquascopeAnalysis::run"]}
{"id": "C57", "title": "Test-source annotations are stripped and located exactly", "statement": "For every test source without stray delimiters, the stripped program is the source with each annotation replaced by its variable, and each expected permission set is recorded at the byte range that variable occupies in the stripped program; unbalanced delimiters are rejected.", "quantifier": "every source text", "why_tests_cant": "All placements of annotations in unbounded text.", "anchors": ["crates/aquascope/src/test_utils.rs: split_test_source"]}
{"id": "C58", "title": "Each path has one identity", "statement": "Looking up any registered place always gives the same path, looking up the path gives back an equal place, and places with different variables or projections never share a path; converting between locations and points is one-to-one.", "quantifier": "every sequence of registrations and lookups", "why_tests_cant": "Registration order and duplicates.", "anchors": ["crates/aquascope/src/analysis/permissions/context.rs: new_path, place_to_path, location_to_point, point_to_location"]}
{"id": "C59", "title": "What is shown behind a pointer does not depend on where the pointer is stored", "statement": "For every memory state, the heap cell shown for an allocation depicts the value of that allocation as seen through the type of a pointer to it (the buffer of a string or vector as its elements), whether the pointer is held in a variable, a field, a box or an element of a vector.", "quantifier": "all memory states and all placements of pointers in values", "why_tests_cant": "The reader keeps a stack of enclosing container kinds; whether it leaks into a nested pointer depends on the nesting of types and on the order in which allocations are first seen, which a few examples do not cover.", "anchors": ["crates/aquascope/src/interpreter/mvalue.rs: Reader::read_alloc, Reader::read_pointer, Reader::read"]}
{"id": "C60", "title": "Reading a memory state always terminates", "statement": "For every memory state a program can be in, converting the variables and the heap of a step to values terminates without exhausting the stack.", "quantifier": "all memory states, including cyclic ones and those with string literals", "why_tests_cant": "Termination must hold for every shape of the pointer graph.", "anchors": ["crates/aquascope/src/interpreter/mvalue.rs: Reader::read_pointer, Reader::read"]}
{"id": "C61", "title": "Every use of a variable has its own boundary", "statement": "For every function body, the expressions that get a boundary cover every written occurrence of a variable exactly once and in source order (targets of plain assignments aside), and each boundary stands for the use of a single variable.", "quantifier": "every expression tree", "why_tests_cant": "Nesting of places, calls and matches is unbounded; a missed occurrence shows as nothing at all.", "anchors": ["crates/aquascope/src/analysis/boundaries/path_visitor.rs: visit_expr, get_path_boundaries"]}
{"id": "C62", "title": "Undeclared flows between caller regions are never accepted", "statement": "If data of one caller region flows into another caller region and the signature does not relate the two, the flow between them is reported as a violation.", "quantifier": "every constraint graph and every signature", "why_tests_cant": "Depends on the shape of arbitrary constraint graphs, in particular on cycles.", "anchors": ["crates/aquascope/src/analysis/permissions/flow.rs: RegionFlows::flow_kind, compute_flows"]}
{"id": "C63", "title": "The entry and exit of a node do not depend on hashing", "statement": "For every body and every source node, the reported entry and exit locations are the same whatever order the hash maps involved are iterated in, so the analysis of the same source always gives the same steps.", "quantifier": "every body, every set of gathered locations, every iteration order", "why_tests_cant": "The hash order of a given compiler build is fixed, so a test sees one order only.", "anchors": ["crates/aquascope/src/analysis/ir_mapper/mod.rs: IRMapper::get_mir_locations", "crates/aquascope/src/analysis/ir_mapper/post_dominators.rs: AllPostDominators"]}
{"id": "C64", "title": "Adding a step to a body always terminates", "statement": "For every function body and every state of the construction, adding the next step either succeeds or reports an error after finitely many actions; it never recurses for ever.", "quantifier": "every control-flow graph, every history of insertions, every target location", "why_tests_cant": "Non-termination depends on the shape of arbitrary control-flow graphs, in particular on early returns inside nested branches.", "anchors": ["crates/aquascope/src/analysis/stepper/segmented_mir.rs: SegmentedMirBuilder::insert, open_child_branch"]}
{"id": "C65", "title": "Branches without a source construct can nest to any depth", "statement": "When a step crosses a switch that no source construct announced, a branch is opened for it; this works inside such a branch too, to any depth.", "quantifier": "every nesting of switches, every history", "why_tests_cant": "Each additional level of nesting is a new case.", "anchors": ["crates/aquascope/src/analysis/stepper/segmented_mir.rs: SegmentedMirBuilder::open_child_branch, closes_branch, finish_first_collection"]}
{"id": "C66", "title": "Every linear step is a straight piece of control flow", "statement": "The start of every linear step dominates its end, and no switch lies between the two, so a step never runs backwards and never hides a choice.", "quantifier": "every control-flow graph and every history of insertions", "why_tests_cant": "Quantifies over all paths of all control-flow graphs.", "anchors": ["crates/aquascope/src/analysis/stepper/segmented_mir.rs: SegmentedMirBuilder::insert, find_suitable_spanner_at"]}
{"id": "C67", "title": "The interpreter command prints one result for every program", "statement": "For every program and every value of the should-fail option, the interpreter command prints exactly one result: the trace if the program was interpreted, and an error otherwise, including when the program does not compile; borrow-checker errors are ignored exactly if the option is given.", "quantifier": "every end of the compilation and of the interpretation", "why_tests_cant": "Every combination of compiler errors, option and interpreter outcome.", "anchors": ["crates/aquascope_front/src/plugin.rs: AquascopePlugin::run", "crates/aquascope/src/interpreter/mod.rs: InterpretCallbacks"]}
{"id": "C68", "title": "The join point of a branch is the first block that every way out of the branch passes", "statement": "For every body with a return and every branching block, the block taken as the branch's join point is dominated by the branch, lies on every path from the branch to every return, does not itself end in a compiler-inserted false edge, and comes before (dominates) every other such block; if the blocks dominated by the branch come together in one of them and such a block exists, a join point is always found, and it does not depend on the iteration order of the hash sets involved.", "quantifier": "all control-flow graphs with at least one return, all branching blocks", "why_tests_cant": "Tests check a handful of Rust functions; the claim relates dominators and post-dominators over arbitrary graphs and arbitrary hash-set iteration orders.", "anchors": ["crates/aquascope/src/analysis/stepper/segmented_mir.rs: SegmentedMirBuilder::least_post_dominator", "crates/aquascope/src/analysis/ir_mapper/mod.rs: IRMapper::ldominates, lpost_dominates"]}
{"id": "C69", "title": "The borrow checker box of the playground decides how the program is run", "statement": "For every program, running it from the playground tells the tool that the program should fail to compile iff the box for passing the borrow checker is not ticked, and the program sent is the one in the editor.", "quantifier": "every program and both states of the box", "why_tests_cant": "The value is sent as a JSON field and read on the server by another program; every program and configuration is possible.", "anchors": ["frontend/packages/aquascope-standalone/src/index.tsx: renderInterpreter", "frontend/packages/aquascope-editor/src/lib.tsx: callBackendWithCode", "crates/aquascope_serve/src/container.rs: interpreter_command"]}
{"id": "C70", "title": "Everything drawn on the page belongs to the text in the editor", "statement": "At every moment, the steps, boundaries and markers drawn in the editor, the diagram beside it and the banner that the code does not compile belong to the text that is in the editor; an edit removes what was drawn for the old text.", "quantifier": "every sequence of edits, button presses and answers, with answers in any order, late, failed or missing", "why_tests_cant": "Requests are answered asynchronously while the user edits; the number of interleavings is unbounded.", "anchors": ["frontend/packages/aquascope-editor/src/lib.tsx: Editor, resetMarkedRangesOnEdit, renderOperation, renderPermissions", "frontend/packages/aquascope-standalone/src/index.tsx: withLoadingButton"]}
{"id": "C71", "title": "Primitive values are shown exactly", "statement": "For every primitive value in memory, the text shown in the diagram denotes exactly this value: integers as their decimal digits, characters and strings as their characters, truth values as words; and every primitive value is shown.", "quantifier": "every integer of every width, every character, every string, every float", "why_tests_cant": "Ranges over all values of all primitive types; the value passes through three number formats.", "anchors": ["crates/aquascope/src/interpreter/mvalue.rs: read primitives", "frontend/packages/aquascope-editor/src/editor-utils/interpreter.tsx: ValueView"]}
{"id": "C72", "title": "An arrow in the memory diagram ends at the place the pointer points to", "statement": "When a step is drawn, every pointer in it has exactly one arrow, in document order, and the arrow ends at the element that depicts the part of memory the pointer's path leads to; elements at different paths never share a class name.", "quantifier": "every step: all frames, variables, heap cells, nested values and pointer paths", "why_tests_cant": "Value trees nest arbitrarily; collisions of class names, shadowed names, zero-sized fields and abbreviated arrays interact.", "anchors": ["frontend/packages/aquascope-editor/src/editor-utils/interpreter.tsx: PointerView, ValueView, AdtView, LocalsView, HeapView, renderArrows"]}
{"id": "C73", "title": "A step table shows the focused rows first and hides the others behind a toggle", "statement": "For every step table and every list of path expressions given by the author, no row is lost or invented and the order is kept; a row is hidden behind the dots iff expressions are given for its line and none of them selects the row's path; and a line starts open iff no line is focused or this one is.", "quantifier": "every list of rows and every list of literal and pattern expressions", "why_tests_cant": "Ranges over all place texts and pattern lists.", "anchors": ["frontend/packages/aquascope-editor/src/editor-utils/stepper.tsx: StepLine, makeStepDecorations"]}
{"id": "C74", "title": "Places reported by the tool are shown at the right position in the editor", "statement": "For every document and every line and column reported by the tool, the position in the editor is the position of the character at that line and column.", "quantifier": "every document and every line and column", "why_tests_cant": "Ranges over all texts, including characters outside the basic plane.", "anchors": ["frontend/packages/aquascope-editor/src/editor-utils/misc.tsx: linecolToPosition", "crates/aquascope/src/interpreter/step.rs"]}
{"id": "C75", "title": "Undefined behaviour is shown at the step that caused it", "statement": "When a trace ends with an error, the diagram shows an error marker at the last step shown, and this is the step during which the error happened.", "quantifier": "every trace, every list of marks and both outcomes", "why_tests_cant": "Marks select an arbitrary subsequence of the steps.", "anchors": ["frontend/packages/aquascope-editor/src/editor-utils/interpreter.tsx: renderInterpreter, filterSteps"]}
{"id": "C76", "title": "The cells of a step row show how each permission changed", "statement": "For every row, the three cells stand for read, write and own in this order; each shows whether the place had the permission before and has it after; pointing at a cell shows the region of the loan or move that takes the permission away; and a permission shown as lost or absent for a live place is explained by a region, by uninitialised memory or by the type.", "quantifier": "every combination of before and after", "why_tests_cant": "The whole decision table over the change of each fact and permission.", "anchors": ["frontend/packages/aquascope-editor/src/editor-utils/stepper.tsx: PermChar, PermDiffRow"]}
{"id": "C77", "title": "A boundary shows a letter for every expected permission, filled if it is there", "statement": "For every boundary, one letter is drawn for each expected permission in the order read, write, own, flow; it is hollow iff the permission is missing; the size given to the style sheet is the number of letters; and some letter is hollow iff an expected permission is missing or the flow is violated.", "quantifier": "every set of expected and actual permissions", "why_tests_cant": "The whole decision table.", "anchors": ["frontend/packages/aquascope-editor/src/editor-utils/boundaries.tsx: PermissionIcon, BoundaryPointWidget"]}
{"id": "C78", "title": "Pointing at a boundary highlights exactly the regions that explain it", "statement": "For every set of analysis results, pointing at a letter highlights exactly the point of the loan or move that its data refers to in the same body and the non-empty ranges of its region, and nothing else.", "quantifier": "every set of analysis results with any number of bodies, loans and moves", "why_tests_cant": "Keys of several bodies share one document; the marks of all bodies are drawn together.", "anchors": ["frontend/packages/aquascope-editor/src/editor-utils/misc.tsx: generateAnalysisDecorationFacts, loanFactsToDecoration, showRegion, hideRegion", "frontend/packages/aquascope-editor/src/editor-utils/boundaries.tsx"]}
{"id": "C79", "title": "Arrows into the same box end at different heights around its middle", "statement": "For every step drawn there is one arrow per pointer, in document order. Arrows that enter the same box at the side end 30 % of its height apart, centred on its middle and on the box; a single arrow ends in the middle. They never meet the end of an arrow within the stack. Neighbouring arrows have different colours, and arrows from the stack to the heap turn at different distances, counted among the arrows between these regions.", "quantifier": "every list of pointers of a step, any number of pointers into any number of boxes, every combination of regions", "why_tests_cant": "Needs particular numbers of pointers into one box; a picture with one or two pointers looks right, and the library hides the missing height of a single arrow.", "anchors": ["frontend/packages/aquascope-editor/src/editor-utils/interpreter.tsx: renderArrows", "frontend/packages/aquascope-editor/src/editor-utils/misc.tsx: evenlySpaceAround"]}
{"id": "C80", "title": "An option of a block has one meaning", "statement": "For every block, an option is in effect iff it is given as a bare flag or with the value true, and then for every part of the program that reads it: the tool and the page agree about shouldFail, and the same spelling works for all options.", "quantifier": "every block, every list of options with arbitrary values and repetitions, every set of answers", "why_tests_cant": "Each reader of an option is tested, if at all, with the one spelling used in the book; disagreements between readers need unusual spellings.", "anchors": ["crates/mdbook-aquascope/src/preprocessor.rs: run_aquascope, process_code", "frontend/packages/aquascope-editor/src/lib.tsx: Editor.renderOperation", "frontend/packages/aquascope-editor/src/editor-utils/permissions.tsx: renderPermissions", "frontend/packages/aquascope-editor/src/editor-utils/interpreter.tsx: InterpreterView"]}
{"id": "C81", "title": "The refresh button of an embedded block shows the analysis of the edited text", "statement": "When the refresh button of an interactive block is pressed and the answers arrive, the block shows the steps and boundaries that its options ask for and the diagram, all computed for the text in the block.", "quantifier": "every block, every text, every order of answers", "why_tests_cant": "Interleavings of presses, edits and answers; every combination of options.", "anchors": ["frontend/packages/aquascope-embed/src/main.tsx: computePermBtn", "frontend/packages/aquascope-editor/src/lib.tsx: renderOperation"]}
{"id": "C82", "title": "The walk over a function keeps its brackets balanced", "statement": "While the permission steps of a function are computed, every scope that is opened is closed again under its own number with properly nested calls in between; the only internal error such a walk can report is that a branch could not be opened, and no path hint is left over.", "quantifier": "every expression tree of a function body, every control-flow graph, every order of hash maps", "why_tests_cant": "tests walk the bodies of a few source files; nesting of calls for arbitrary trees, including early exits after an error, is not observed by any test", "anchors": ["crates/aquascope/src/analysis/stepper/hir_steps.rs: visit_block, visit_stmt, visit_arm, invoke_internal", "crates/aquascope/src/analysis/stepper/segmented_mir.rs: open_scope, close_scope"]}
{"id": "C83", "title": "A conditional needs the step before it", "statement": "Steps are shown for a function only if every conditional reached has the step of its condition recorded: it ends exactly where the branch is opened. A condition whose step is dropped or cut short makes the whole function fail.", "quantifier": "every function body for which steps are computed, every conditional in it", "why_tests_cant": "needs all control-flow graphs; the failing graphs are rare shapes which tests do not contain", "anchors": ["crates/aquascope/src/analysis/stepper/hir_steps.rs: expr_condition_prelude, handle_expr_if, handle_expr_match", "crates/aquascope/src/analysis/stepper/segmented_mir.rs: insert, mk_branch"]}
{"id": "C84", "title": "Steps after a conditional with an early exit", "statement": "The statements after a conditional get their steps. (Violated: after a conditional all further steps lie in what can be reached from the point where its branches come together; with `if c { return; } s` that is the end of the function, so `s` gets none, and a later `if` is refused with an internal error.)", "quantifier": "every function body of the form of a block whose statements include a conditional", "why_tests_cant": "the loss is silent: the display simply has fewer steps", "anchors": ["crates/aquascope/src/analysis/stepper/hir_steps.rs: visit_block, handle_expr_if", "crates/aquascope/src/analysis/stepper/segmented_mir.rs: mk_branch, find_suitable_collection"]}
{"id": "C85", "title": "When a function is given steps", "statement": "A function is given steps if and only if the walk ends without panic and internal error, there is no arm with a guard, and no branch was opened that no conditional closes. `let … else` and `&&` with a block, inside a conditional, leave a branch open, so such a function is given none.", "quantifier": "every expression tree, every control-flow graph", "why_tests_cant": "the condition involves the bookkeeping of all branches opened on the way", "anchors": ["crates/aquascope/src/analysis/stepper/mod.rs: compute_permission_steps", "crates/aquascope/src/analysis/stepper/segmented_mir.rs: freeze, finish_first_collection, open_child_branch, close_branch"]}
{"id": "C86", "title": "Guards are refused", "statement": "A function with an arm with a guard that the walk comes to is never given steps; `unsupported feature` is reported only if there is such an arm, and it is reported whenever there is one and no internal error.", "quantifier": "every expression tree, every control-flow graph", "why_tests_cant": "tests cover one guard; nested positions are unbounded", "anchors": ["crates/aquascope/src/analysis/stepper/hir_steps.rs: visit_arm, get_unsupported_feature", "crates/aquascope/src/analysis/stepper/mod.rs: compute_permission_steps"]}
{"id": "C87", "title": "Steps do not depend on the order of hash maps", "statement": "The steps computed for a function do not depend on the order in which hash maps are iterated. (Violated: arms that share a target of the first switch compete, the order decides which is shown, and the others get no step.)", "quantifier": "every function body, every two iteration orders", "why_tests_cant": "a given build always iterates in the same order, so a test cannot see the difference", "anchors": ["crates/aquascope/src/analysis/stepper/hir_steps.rs: handle_expr_if, handle_expr_match"]}
{"id": "C88", "title": "Steps asked for", "statement": "If there is no internal error, the steps and branches asked for are exactly the due ones, in source order: one after each statement, final expression and condition, one into each arm. With an internal error, nothing else is asked for and the order is kept.", "quantifier": "every expression tree, every control-flow graph", "why_tests_cant": "tests compare the final tables of a few programs, after most steps have been merged or dropped", "anchors": ["crates/aquascope/src/analysis/stepper/hir_steps.rs: visit_body, visit_block, visit_stmt, visit_expr, visit_arm, insert_step_at_node_exit"]}
{"id": "C89", "title": "A function without conditionals", "statement": "A function without conditionals and guards is always given steps. They follow one another from the start of the function without gap, each due step being made if and only if its end is on every path from the last end to the exit and the last end is on every path to it; within a basic block no due step is missing.", "quantifier": "every expression tree without conditional, every control-flow graph", "why_tests_cant": "unbounded number of statements and nested blocks", "anchors": ["crates/aquascope/src/analysis/stepper/hir_steps.rs: visit_stmt, visit_block, insert_step_at_node_exit", "crates/aquascope/src/analysis/stepper/segmented_mir.rs: insert, insert_to, freeze"]}
{"id": "C90", "title": "Every block of a page is shown with the answers to its own operations", "statement": "For every page, each block is opened independently of the others and shows its operations in the order in which they are written, each drawn from the answer that the tool gave to this operation on this program; the server is asked only for operations without an answer.", "quantifier": "every list of blocks, every list of operations per block, every set of answers and options", "why_tests_cant": "Pages with one well-formed block are what is looked at; the effect of one block on another and of one operation on the next needs combinations.", "anchors": ["frontend/packages/aquascope-embed/src/main.tsx: initAquascopeBlocks", "frontend/packages/aquascope-editor/src/lib.tsx: Editor.renderOperation, Editor.renderInterpreter", "crates/mdbook-aquascope/src/preprocessor.rs: process_code"]}
{"id": "C91", "title": "A state is attributed to the statement that was running", "statement": "For every function and every machine location in it, the state is attributed to the statement or final expression of the function's outermost block in whose source code the location lies; to the closing brace if the location belongs to it; and to nothing if it lies in no such statement. The answer depends neither on the order in which the set of statements is walked nor on what was asked before.", "quantifier": "every function body and control-flow graph, every tree of source nodes, every location, every iteration order of the set of nodes, every sequence of questions", "why_tests_cant": "The iteration order of a hash set changes from run to run, and the memo table makes an answer depend on earlier questions only if it is wrong; tests see one order and one sequence.", "anchors": ["crates/aquascope/src/interpreter/mapper.rs: Mapper, FindSteppableNodes", "crates/aquascope/src/analysis/ir_mapper/mod.rs: IRMapper::new, get_mir_locations"]}
{"id": "C92", "title": "The states shown are states of the execution, each at the statement running in every frame", "statement": "For every execution, the states shown are a subsequence of the states of the machine; each keeps its heap and all its frames, and every frame is shown at the place of the statement that was running in its function. Two consecutive states are at different places of the innermost function, the last state is shown if it can be, the result is unchanged, and the states shown are exactly the last of each run of states at one place.", "quantifier": "every execution trace of any length and stack depth, every set of functions, every mapping of nodes to spans", "why_tests_cant": "The two grouping passes interact only on particular sequences of states with several frames, and frames that cannot be mapped are rare.", "anchors": ["crates/aquascope/src/interpreter/mod.rs: interpret", "crates/aquascope/src/interpreter/mapper.rs: Mapper::abstract_loc, group_steps"]}
{"id": "C93", "title": "A program is reported as too slow only if its analysis takes ten seconds", "statement": "For every program, if the analyser finishes its work in less than ten seconds its complete output is read and used, whatever the size of the output; the block is reported as timed out only if ten seconds have passed and the work was not done.", "quantifier": "every sequence of writes of any length to both output streams, every interleaving with the passing of time, every pipe capacity", "why_tests_cant": "Depends on the size of the output relative to a buffer of the operating system; small examples never reach it.", "anchors": ["crates/mdbook-aquascope/src/preprocessor.rs: run_aquascope"]}
{"id": "C94", "title": "A new analysis replaces what is shown in the editor", "statement": "For every history of edits and answers, after an answer the editor shows step tables and boundaries exactly at the places of this answer, each with the contents of this answer.", "quantifier": "every history of edits and answers of any length, every set of tables and boundaries", "why_tests_cant": "Needs two analyses with different results for the same line; tests render once.", "anchors": ["frontend/packages/aquascope-editor/src/editor-utils/stepper.tsx: PermissionStepLineWidget.eq", "frontend/packages/aquascope-editor/src/editor-utils/boundaries.tsx: BoundaryPointWidget.eq", "frontend/packages/aquascope-editor/src/editor-utils/misc.tsx: makeDecorationField"]}
{"id": "C95", "title": "A state shows exactly the named variables that hold a value", "statement": "For every execution, each frame of a state lists in the order of declaration exactly the variables that the reader knows by name (and the result, unless it is unit) that hold a completely initialised value at that moment; a variable that is dead or not yet assigned is not listed, and a variable that is completely assigned is.", "quantifier": "every stack of any depth, every variable of any type and layout, every set of initialised bytes", "why_tests_cant": "Depends on the layout of nested types and on which bytes of memory are initialised, at every moment of a run; tests look at the final list for a few programs.", "anchors": ["crates/aquascope/src/interpreter/step.rs: find_locals, test_local, mem_is_initialized"]}
{"id": "C96", "title": "Arrows from variables to variables lead to the variable whose memory is pointed to", "statement": "For every state, an arrow into the stack leads to the variable, by frame and name, in whose memory the pointer points; every pointer to live memory of a frame has such an arrow; and a variable is marked as moved iff it was moved out of.", "quantifier": "every stack of any depth, every memory, every set of variables with and without addresses", "why_tests_cant": "Needs several frames with variables of equal names and pointers among them, hidden temporaries and moves; tests have one or two frames.", "anchors": ["crates/aquascope/src/interpreter/step.rs: find_locals, build_frame, build_stack, build_step"]}
{"id": "C97", "title": "The permission tables of a page tell the truth about the program, and tell it completely", "statement": "For every function that is given steps: each row on the page is about one step of the function that ends on that line (or about the start of the function), and says exactly which of R, W and O the place has before and after it, as execution paths, moves and borrows determine them; and whenever a step changes the permissions of a visible place, a row on the line where the step ends says so.", "quantifier": "every control-flow graph, every tree of expressions, every set of places, facts, moves and borrows, every source text and hash order", "why_tests_cant": "Combines the whole pipeline from facts to rows; tests compare a few pages with recorded ones, which says nothing about rows that should be there.", "anchors": ["crates/aquascope/src/analysis/stepper/table_builder.rs: finalize_body, locals_to_filter, insert_segment, insert_branch, prettify_permission_steps", "crates/aquascope/src/analysis/permissions/context.rs: permissions_domain_at_point", "crates/aquascope/src/analysis/stepper/mod.rs: compute_permission_steps"]}
{"id": "C98", "title": "The letters drawn at a use of a path tell what the use needs and what is missing", "statement": "For every function: each stack of letters on the page stands at a use written in the source (at the end of what is matched on or of a method's receiver, before any other use); R is always there, W iff the use assigns or borrows mutably, O iff it moves, F iff data flows into the caller's regions around it; a letter is drawn as missing exactly if, at the statement chosen for the use, a move or a maybe-uninitialised state or a conflicting loan reaches the place, or its declaration does not allow it (for F: iff such a flow, to which the use contributes, is not allowed). Conversely every use for which a statement is found has its stack, unless it is after the first error and not about a flow, or another stack stands at the same position.", "quantifier": "every expression, control-flow graph, attribution of statements to nodes, set of facts, moves, borrows and region constraints, every list of functions on a page and every hash order", "why_tests_cant": "Combines visitor, source mapping, facts, flows and page; the tests compare marked permissions at single places and never flows together with positions.", "anchors": ["crates/aquascope/src/analysis/boundaries/mod.rs: compute_permission_boundaries, path_to_perm_boundary, paths_at_hir_id, flow_constraints_at_hir_id, get_flow_permission", "crates/aquascope/src/analysis/boundaries/path_visitor.rs: HirExprScraper", "crates/aquascope/src/analysis/permissions/context.rs: permissions_data_at_point, is_universal_subset", "frontend/packages/aquascope-editor/src/editor-utils/boundaries.tsx: PermStack, makeBoundaryDecorations"]}
{"id": "C99", "title": "In a straight-line function every statement has its own step, and the page tells the permissions after it", "statement": "If the normal control flow of a function is one path and its code is laid out in the order of the source, then every statement, final expression and body that has code gets exactly one step of its own, in the order in which they end. Each step begins where the one before ended (the first at the start of the function) and ends right after the last location of the code of the statement, cleanup and compiler-made false edges left out. For a visible variable whose declarations contain no other statement with code, and whose changes are on different lines, the rows of the page then tell its permissions right after every statement. For any control flow: a node has an end iff one of its blocks is on every path from its code to the exits.", "quantifier": "every tree of expressions without conditionals, every control-flow graph that is a path, every attribution of locations to nodes, every mapping of spans", "why_tests_cant": "The tests compare rows of whole programs; that no statement is left out is a universal statement over programs and over the compiler's layout of code.", "anchors": ["crates/aquascope/src/analysis/stepper/hir_steps.rs: HirStepPoints, get_node_entry, get_node_exit, visit_stmt, visit_block, visit_body", "crates/aquascope/src/analysis/ir_mapper/mod.rs: get_mir_locations, local_assigned_place, ldominates, lpost_dominates", "crates/aquascope/src/analysis/stepper/segmented_mir.rs: insert"]}
{"id": "C100", "title": "In a function whose conditionals are properly nested, every statement at any depth has its step and every `if` its two branches", "statement": "Take a function whose normal control flow consists of straight stretches and two-way conditionals that come together again, nested to any depth. If its code lies in this control flow in the order of the source, the stepper succeeds, and its steps and branches are exactly these: every statement, final expression and body with code has one step, from where the step before it on the same level ended to right after its own code; every condition has one; each arm is entered by a step from the end of the condition to the start of the arm, shown at the start of its block, or at the end of the whole `if` where there is no `else`; the statements in the arms go on from there, and what follows the `if` goes on from the block where the arms come together. For each `if` one branch is recorded, from its switch to that block. In particular, for all programs of assignments, calls, `if`s and `if`-`else`s, whatever their nesting, the steps are those one writes down by reading the source.", "quantifier": "every control-flow graph made of nested two-way conditionals, every tree of expressions, every attribution of locations; and every program of the small language (any length and depth, any spans, any order of hash tables)", "why_tests_cant": "Any test has one nesting; that the join found through post-dominators is always the right one, and that the collection chosen by dominance is always the one of the right arm, is a statement about all nestings.", "anchors": ["crates/aquascope/src/analysis/stepper/hir_steps.rs: visit_expr, handle_expr_if, visit_stmt, visit_block, visit_body", "crates/aquascope/src/analysis/stepper/segmented_mir.rs: insert, open_branch, close_branch, find_suitable_collection, least_post_dominator, find_next_switch", "crates/aquascope/src/analysis/ir_mapper/body_graph.rs: successors, location_successor"]}
{"id": "C101", "title": "In a function with nested conditionals every change of a place has its row; what happens where branches come together has none", "statement": "No step is misplaced: whatever is inserted, every step that goes somewhere and every recorded branch belongs to the tree from which the tables are collected, and nothing else does. So for any function, a step that changes the permissions of a visible place has a row with exactly the permissions before and after, unless another step or a branch ends at the same location, another step on its line changes the place too, or it lies in a `let` that declares the variable. In programs of assignments, calls and `if`s nested to any depth the locations never coincide: the page is always made, and the rows tell the permissions of a place after every step, following the steps from the start of the function or from the last `if` that ended: they are what the last row on this way says, or what they were at its beginning; at the start that is the row at the opening brace. What they are where the branches of an `if` come together is never shown: of a value dropped in one branch the page does not say, on the way through the other, that it is gone afterwards.", "quantifier": "every history of the builder; every function and program of the small language, any nesting, any state of places, any source text, any order of hash tables", "why_tests_cant": "Tests show single pages; that no step is forgotten between the tree and the page in any nesting, and that the rows suffice to know the permissions, are statements about all of them.", "anchors": ["crates/aquascope/src/analysis/stepper/table_builder.rs: insert_collection, insert_branch, insert_segment, finalize_body", "crates/aquascope/src/analysis/stepper/segmented_mir.rs: insert, mk_branch, freeze", "crates/aquascope/src/analysis/stepper/hir_steps.rs: visit_expr"]}
{"id": "C102", "title": "In every program of statements, conditionals, `match`es and loops the stepper makes exactly the expected steps", "statement": "A function made of assignments, `let`s, calls, `if`s with or without `else`, `match`es with any number of arms and bindings, `while` loops with any number of calls in the condition and `for` loops, nested to any depth and in any order: the stepper succeeds on it. It makes exactly one step for each statement without a condition, one for each condition, one into each way that begins there, one at the start of each arm, and one for each loop as a whole, in the order of the source and from where the last one ended; nothing is left out and nothing is shown twice. It records exactly one branch for each `if`, `match` and loop, from the switch to the block in which the ways come together (for a loop, the block behind it), and with the branch the steps into its ways, in the order of the switch. The order in which hash tables are read does not matter. More generally, whenever the steps of a function can be walked along its control flow (each ends at a location that is passed on every way and lies between the previous one and the end of its arm, and the arms of a construct do not dominate each other), the stepper makes the steps of this walk and no others.", "quantifier": "every program of the language, any nesting, any number of arms, variables and calls, any spans, any order of hash tables; for the general statement every valid body with an exit and every source", "why_tests_cant": "Tests step through a few fixed functions; that loops inside arms inside loops keep the scopes of the builder in order in every combination is a statement about all of them.", "anchors": ["crates/aquascope/src/analysis/stepper/hir_steps.rs: visit_expr, visit_arm, handle_expr_if, handle_expr_match, visit_stmt", "crates/aquascope/src/analysis/stepper/segmented_mir.rs: insert, mk_branch, open_branch, close_branch, least_post_dominator, open_scope, close_scope, freeze", "crates/aquascope/src/analysis/ir_mapper/mod.rs: ldominates", "crates/aquascope/src/analysis/ir_mapper/body_graph.rs: location_successor"]}
{"id": "C103", "title": "The page of a program with conditionals, `match`es and loops shows every change; for loops it tells the whole story", "statement": "A function made of assignments, `let`s, calls, `if`s, `match`es and `while` and `for` loops, nested to any depth: its page is always made, and whatever permissions its places have, each step that changes a visible place, and is the only one on its line to do so, has a row with exactly the permissions before and after. This includes the step behind a loop, although the loop's branch ends at the same location: its table is not overwritten by that of the branch. The permissions at the start have their row at the opening brace. Where there are loops but no `if` or `match`, and the changes of a place end on different lines, the rows tell its permissions after every step, on a way of steps from the start of the function. With `if` and `match` they do so since the last place in which arms came together; what is lost there is not shown.", "quantifier": "every program of the language, any nesting, any spans, any permissions, any places, any order of hash tables; for the tables that share an end every collection of steps and branches", "why_tests_cant": "Tests fix a few functions; that the tables of loops do not overwrite those of steps, whatever is nested in them, cannot be seen from samples.", "anchors": ["crates/aquascope/src/analysis/stepper/table_builder.rs: insert_collection, insert_branch, insert_segment, finalize_body", "crates/aquascope/src/analysis/stepper/hir_steps.rs: compute_permission_steps", "crates/aquascope/src/analysis/stepper/mod.rs: PermissionsLineDisplay"]}
{"id": "C104", "title": "In an accepted program permissions follow the use of the value", "statement": "In a function the borrow checker accepts, a path may be read at the start of a MIR location exactly if the value of its variable may still be used (some way through the function comes to a use of the variable with no definition of it before) and it is not mutably borrowed there; it may be written or owned exactly if in addition its declaration or type allows it and it is not borrowed at all. Moves and missing initialisation need not be looked at. For a path that is never borrowed: if it may be read at one location but not at an earlier one, its variable is defined on every way between them; if it may be read at one location but not at a later one, its variable is used on a way that does not come through the later one; before a location it may be read exactly if the location uses it, or does not define it and it may be read before one of the next locations. The exception is the location to which a call returns: a variable that the call gives its value has no permissions there yet.", "quantifier": "all facts that satisfy the rules of Polonius for liveness and initialisation and in which the path is set by statements, calls or as an argument and not used while moved or uninitialised; any control flow, any number of points, paths, moves and loans", "why_tests_cant": "The facts are computed by a fixpoint over the whole control flow graph; which of its several sources takes a permission away can only be excluded for all graphs by proof.", "anchors": ["crates/aquascope/src/analysis/permissions/output.rs: derive_permission_facts", "crates/aquascope/src/analysis/permissions/context.rs: permissions_data_at_point, is_path_live_at", "crates/aquascope/src/analysis/permissions/mod.rs: PermissionsData"]}
{"id": "C105", "title": "The rows of a variable that is never borrowed are where its value starts or stops being of use", "statement": "In a function made of assignments, `let`s, calls, `if`s, `match`es and `while` and `for` loops, nested to any depth, and accepted by the borrow checker, take a visible variable that is never borrowed and whose changes are on different lines. The page has a row for it on a line exactly if a step that ends on this line leads from a location where its value may still be used to one where it may not, or the other way round, or the function begins on this line and the value the variable starts with is of use. R changes in each of its rows; W and O come and go with R if declaration and type allow them. A line on which only statements end that do not mention the variable has no row for it. A step over a statement takes permissions away only if the statement uses the variable and gives them only if it defines it; a step into an arm of a conditional never gives permissions, and takes them away exactly if the value is of use on another way and not on this one.", "quantifier": "every program of the language, every control flow graph for the statements on single steps, all accepted facts, any lines, any order of hash tables", "why_tests_cant": "Whether a row appears depends on the analysis of the whole function and on the way tables are merged and laid out on lines.", "anchors": ["crates/aquascope/src/analysis/permissions/output.rs: derive_permission_facts", "crates/aquascope/src/analysis/stepper/hir_steps.rs: compute_permission_steps", "crates/aquascope/src/analysis/stepper/table_builder.rs: finalize_body", "crates/aquascope/src/analysis/stepper/mod.rs: PermissionsLineDisplay"]}
{"id": "C106", "title": "The preprocessor uses the pinned compiler unless told otherwise", "statement": "The book preprocessor starts exactly if its cache can be loaded, the sysroot is given by the environment variable `MIRI_SYSROOT` or else printed by `cargo +<pinned channel> miri setup`, the compiler is given by `RUSTC_PATH` or else by `rustup which` for the pinned channel, and this compiler prints the directory of its libraries. It uses exactly these values, without white space at the end if they were printed, and as they are if they come from the environment; it runs no other command, and with both variables set none but the compiler. It panics only if the search for the compiler or the compiler itself fails with a message that is not UTF-8. The analyser is started with the two directories under the names that it and the dynamic linker look for; other variables are passed on unchanged.", "quantifier": "all environments, all replies of commands (which may depend on the commands run before), all pinned channels", "why_tests_cant": "A test runs on one machine with one installation and one environment.", "anchors": ["crates/aquascope_workspace_utils/src/lib.rs: run_and_get_output, rustc, toolchain, miri_sysroot", "crates/mdbook-aquascope/src/preprocessor.rs: AquascopePreprocessor::new, run_aquascope"]}
{"id": "C107", "title": "The text of the difference between two permission states is readable and complete for places that were there before", "statement": "The debug text of permissions determines them, and the text of a difference of permissions determines the permissions before and after. The text of the difference between two states is empty exactly if no place present in both has changed its permissions; else it is a table with one row for each place that has changed, with the change, or is new, with its permissions. Hence places that are only new are not shown if nothing else changed, and places that are gone are never shown. The texts are well-formed markup as long as the texts of places have no angle brackets.", "quantifier": "all permissions, all pairs of states with any places, any texts of places", "why_tests_cant": "A statement about all pairs of states; the code is only used while debugging.", "anchors": ["crates/aquascope/src/analysis/permissions/utils.rs: DebugWithContext", "crates/aquascope/src/analysis/permissions/mod.rs: Debug for Permissions"]}
{"id": "C108", "title": "The rows tell the permissions of a never borrowed variable however the program runs", "statement": "In an accepted function of statements, `let`s, calls, `if`s, `match`es and loops, nested in any way, take a visible variable that is never borrowed and whose changes are on different lines. However the function runs, with every choice of arms and any number of rounds of loops: whenever the run is where some step begins or ends, the permissions of the variable are what the last row says among the rows of steps that the run has gone over; if there is none, what the row at the opening brace says; and none at all if this row is missing too. In particular no change is lost where the arms of a conditional come together or where the body of a loop leads back, although no step covers these jumps.", "quantifier": "all such functions, all runs through their control flow, all numberings and choices of spans, all orders of iteration of the tables", "why_tests_cant": "A statement about all runs through all programs; a test looks at the page of one program and follows no run.", "anchors": ["crates/aquascope/src/analysis/stepper/segmented_mir.rs: SegmentedMir", "crates/aquascope/src/analysis/stepper/hir_steps.rs: HirStepPoints", "crates/aquascope/src/analysis/stepper/table_builder.rs: finalize_body", "crates/aquascope/src/analysis/permissions/context.rs: permissions_data_at_point"]}
{"id": "C109", "title": "The rows of a never borrowed variable can be read off the source", "statement": "In an accepted function of the same kind, the rows of a visible variable that is never borrowed and whose changes are on different lines are exactly those that the source demands: reading the source backwards and noting for each place whether the value of the variable is still of use, there is a row at each step where this changes, saying that the variable gains or loses its permissions, a row at the opening brace if the value that the function starts with is of use, and no other row. A statement takes the permissions away exactly if it uses the value for the last time, and gives them exactly if it sets a value that is of use. Over a loop that does not set the variable, its permissions stay the same in every step of the body of the loop.", "quantifier": "all such functions, all choices of the locations that use and that set the variable", "why_tests_cant": "A statement about all programs; the expected rows of a test are written by hand or copied from the output.", "anchors": ["crates/aquascope/src/analysis/stepper/segmented_mir.rs: SegmentedMir", "crates/aquascope/src/analysis/stepper/hir_steps.rs: HirStepPoints", "crates/aquascope/src/analysis/stepper/table_builder.rs: finalize_body", "crates/aquascope/src/analysis/permissions/context.rs: permissions_data_at_point"]}
{"id": "C110", "title": "The rows of a borrowed variable can be read off the source", "statement": "In an accepted function of statements, `let`s, calls, `if`s, `match`es and loops, nested in any way, take a visible variable that is borrowed any number of times, each loan being held by variables that are set to nothing but the borrow or other holders of it. A loan lasts exactly while one of its holders may still be used. While a shared loan lasts the variable can be read and nothing else; while a mutable one lasts it has no permissions at all; otherwise it has all that its type and declaration allow, as long as it is of use itself. If its changes are on different lines, its rows are exactly the steps over which its permissions, read off the source in this way, differ, each saying this difference, and a row at the opening brace if the function starts with permissions. However the function runs, whenever it is where some step begins or ends, the last row that the run has gone over tells the permissions of the variable.", "quantifier": "all such functions, all numbers of loans and holders, all choices of the locations that use and that set the variables, all runs", "why_tests_cant": "A statement about all programs and all runs; a test compares the page of one program with a snapshot.", "anchors": ["crates/aquascope/src/analysis/permissions/output.rs: compute", "crates/aquascope/src/analysis/permissions/context.rs: permissions_data_at_point", "crates/aquascope/src/analysis/stepper/segmented_mir.rs: SegmentedMir", "crates/aquascope/src/analysis/stepper/table_builder.rs: finalize_body"]}
{"id": "C111", "title": "A letter is missing at a use exactly where the borrow checker objects", "statement": "If the borrow checker rejects a use of a place that is written in the source (it is moved or may be uninitialised, it is borrowed in a conflicting way, it is not mutable or not owned), then the boundary of this use is drawn with a missing R, W or O. Conversely, if it rejects no use of a function, no R, W or O is drawn as missing in it.", "quantifier": "all function bodies, all facts about moves, loans and initialisation, all kinds of uses", "why_tests_cant": "The page and the compiler are two analyses of the same program; a test compares them for a few programs, most of them chosen to show one error.", "anchors": ["crates/aquascope/src/analysis/boundaries/mod.rs: compute_permission_boundaries, path_to_perm_boundary", "crates/aquascope/src/analysis/permissions/context.rs: permissions_data_at_point", "crates/aquascope/src/analysis/permissions/output.rs: derive_permission_facts"]}
{"id": "C112", "title": "The letters at the uses of a borrowed variable can be read off the source", "statement": "In a function of statements, `let`s, calls, `if`s, `match`es and loops, nested in any way, whether the borrow checker accepts it or not, take a variable that is borrowed any number of times, each loan being held by variables that are set to nothing but the borrow or other holders of it. At a use of the variable R is drawn as missing exactly if some holder of a mutable loan of it may still be used, W and O exactly if the use needs them and some holder of any loan may still be used, or its declaration or type does not allow it. And the borrow checker rejects the use exactly in these cases.", "quantifier": "all such functions, all numbers of loans and holders, all uses", "why_tests_cant": "A statement about all programs, in particular about those that do not compile and cannot be run.", "anchors": ["crates/aquascope/src/analysis/boundaries/mod.rs: compute_permission_boundaries, path_to_perm_boundary", "crates/aquascope/src/analysis/permissions/context.rs: permissions_data_at_point", "crates/aquascope/src/analysis/permissions/output.rs: derive_permission_facts"]}
{"id": "C113", "title": "A loan restricts exactly the places that share memory with what is lent", "statement": "At a point of a function a place loses write and own permissions to loans exactly if some live loan is of a place that may share memory with it for some lengths of slices and values of indices, and read exactly if such a loan is mutable. So wholes and parts of what is lent are restricted; other fields of a struct, other variants of an enum and other elements at constant positions are not; fields of a union and elements at computed positions are. In the same way a move stays in force until memory shared with the moved place is assigned.", "quantifier": "all types, recursive ones included; all well-typed places; all facts about loans, moves and assignments", "why_tests_cant": "Projections nest without bound, and positions counted from both ends of a slice meet for some lengths only; tests use one or two fields.", "anchors": ["crates/aquascope/src/analysis/permissions/output.rs: derive_permission_facts (loan_conflicts_with, move_live_at)", "crates/aquascope/src/analysis/permissions/context.rs: place_to_path"]}
{"id": "C114", "title": "Loans that end with the function are told apart", "statement": "Of the loans in error, those of memory of the function itself are taken to be invalidated when it returns, and those of memory of the caller are not; and a use through which data of such a loan flows is drawn with this as the reason.", "quantifier": "all function bodies, all loans and errors, all constraints between regions", "why_tests_cant": "The check and what becomes of its result are in different files; whether the result can ever reach the page depends on all of them.", "anchors": ["crates/aquascope/src/analysis/permissions/flow.rs: check_for_invalidation_at_exit, compute_flows, RegionFlows::flow_kind", "crates/aquascope/src/analysis/boundaries/mod.rs: get_flow_permission"]}
{"id": "C115", "title": "What the book builder writes into a chapter is what the page reads", "statement": "The element that the preprocessor writes into a chapter is one line without control characters, and the page reads from it exactly the program, the operations, the answer to every operation, every option, the annotations, and that the program is fixed, whatever characters occur in them. Answers that come from the cache as text are the same as the answers that were stored.", "quantifier": "all programs, annotations, options and answers; all characters; all orders of attributes and of entries of hash maps", "why_tests_cant": "Two escapings, of JSON and of HTML, are nested, and undone by two other programs in another language; tests of the preprocessor compare no text with what a browser makes of it.", "anchors": ["crates/mdbook-aquascope/src/preprocessor.rs: process_code, run_aquascope", "crates/mdbook-aquascope/src/annotations.rs: AquascopeAnnotations, PathMatcher", "frontend/packages/aquascope-embed/src/main.tsx: initAquascopeBlocks"]}
{"id": "C116", "title": "What the analyser prints is what the page draws", "statement": "The page reads from the text that the analyser prints for a program exactly the trace that the interpreter made, or the results of the analysis of every body: every step, frame, value, path and position, every boundary, row and region, every error. The order in which hash maps were printed makes no difference, and neither does the way through the book builder and its cache.", "quantifier": "all traces and all results of the analysis, of any size and depth; all orders of entries of hash maps", "why_tests_cant": "The types are written by derived code in Rust and read by hand-written code in TypeScript without checks; a field or a tag of another name shows only in a browser. A limit on nesting in a library shows only with deep values.", "anchors": ["crates/aquascope/src/interpreter/mvalue.rs: MValue", "crates/aquascope/src/interpreter/step.rs: MTrace", "crates/aquascope/src/analysis/mod.rs: AnalysisOutput, AquascopeError", "crates/aquascope_front/src/plugin.rs: postprocess", "crates/mdbook-aquascope/src/preprocessor.rs: run_aquascope, process_code", "frontend/packages/aquascope-editor/src/lib.tsx: renderOperation", "frontend/packages/aquascope-editor/src/editor-utils/misc.tsx: generateAnalysisDecorationFacts"]}
{"id": "C117", "title": "The cache file gives back what was stored, and a damaged file gives nothing wrong", "statement": "The bytes that a build writes into the cache file are read by the next build as exactly the entries that were stored, in whatever order the hash map was traversed; a file that ends early is read as nothing or as all of the entries. An entry that is found in any file is literally written there. So the answers of a block in a later build are the answers that were computed in the first.", "quantifier": "all sets of entries with 64-bit keys and any Unicode text, all orders, all places where the file may end", "why_tests_cant": "The order of a hash map differs between runs, and a file that ends at one particular byte, within an escape or within the bytes of a letter, is not met by chance.", "anchors": ["crates/mdbook-aquascope/src/cache.rs: Cache::load, Cache::save", "crates/mdbook-aquascope/src/preprocessor.rs: process_code"]}
{"id": "C118", "title": "What the playground shows is what the tool printed for the program in the editor", "statement": "When a user of the playground presses a button, the tool runs on exactly the text in the editor, with the configuration that the page sends, and what the page draws and reports is exactly what the tool printed for it, whatever other requests the server is working on. If the server cannot do it, the page shows the server's explanation.", "quantifier": "all programs (any Unicode text), all configurations, all other requests and all interleavings of their parts, all outputs of the tool", "why_tests_cant": "The text passes through two JSON writers, two JSON readers, UTF-8 and a process boundary; letters that need escapes, other requests at the same time and failures of the server are not in a test of the happy path.", "anchors": ["frontend/packages/aquascope-editor/src/lib.tsx: callBackendWithCode, renderOperation", "crates/aquascope_serve/src/main.rs: SingleFileRequest, ServerResponse, Error", "crates/aquascope_serve/src/server.rs: make_single_file_endpoint, Json", "crates/aquascope_serve/src/container.rs: permissions, interpreter"]}
{"id": "C119", "title": "What is printed has the type for which the page is compiled", "statement": "Everything that the analyser prints, and every annotation that the book builder writes, is a value of the TypeScript type that is exported for it and against which the page is compiled: every declared property is there with a value of the declared type, no other property is there, and every alternative of a union is one of the declared ones.", "quantifier": "all traces, results of the analysis, errors and annotations, of any size and depth", "why_tests_cant": "The types are exported by one derive macro and the JSON is written by another, with different attributes; the TypeScript compiler trusts the types and nothing checks them at run time.", "anchors": ["crates/aquascope/src/interpreter/mvalue.rs: MValue", "crates/aquascope/src/interpreter/step.rs: MTrace", "crates/aquascope/src/analysis/mod.rs: AnalysisOutput, AquascopeError", "crates/mdbook-aquascope/src/annotations.rs: AquascopeAnnotations"]}
{"id": "C120", "title": "The options of a block reach the analysis of each of its operations", "statement": "For each operation of a block the analyser is started with what the block says: the changes of permissions, with flows exactly if showFlows is given; or the execution, of programs that are refused, too, exactly if shouldFail is given. No other operation starts an analysis. The arguments arrive unchanged in the compiler driver, and reading them there cannot fail. The playground asks for changes of permissions without flows or for the execution.", "quantifier": "all blocks with any operations and options, all command lines, all requests of the playground", "why_tests_cant": "The options go through a vector of strings, a clap parser, an environment variable as JSON and a default; a test of a block with one operation does not meet combinations of options and operations.", "anchors": ["crates/aquascope_front/src/plugin.rs: AquascopePluginArgs, args, run", "crates/mdbook-aquascope/src/preprocessor.rs: run_aquascope", "crates/aquascope_serve/src/container.rs: permissions_command, interpreter_command", "crates/aquascope/src/analysis/stepper/mod.rs: PermIncludeMode"]}
{"id": "C121", "title": "A chapter keeps everything but its blocks and tags", "statement": "The chapter that the preprocessor hands on is the chapter that it got, with each Aquascope block replaced by its own element and each permission tag by its own letters; every character before, between and behind them is kept, in order, and the order in which the worker threads deliver their results makes no difference. If one block or tag ends with an error, no chapter is handed on. A chapter without blocks and tags is handed on unchanged.", "quantifier": "all chapters (any text, any characters), any number of blocks and tags, any outcome of the analyses, any order of delivery", "why_tests_cant": "Ranges are byte offsets into the original text and the replacements change its length; results come from a parallel iterator in no fixed order. Tests have one block per chapter.", "anchors": ["crates/mdbook-aquascope/src/preprocessor.rs: replacements", "crates/mdbook-aquascope/src/main.rs: AquascopePreprocessorWrapper", "crates/mdbook-aquascope/src/permissions.rs: parse_perms", "crates/mdbook-aquascope/src/block.rs: AquascopeBlock::parse_all"]}
{"id": "C122", "title": "The build of a whole book", "statement": "A build of a book ends well exactly if every chapter can be made alone, from the answers in the cache file and the analyser, whatever the workers did to each other; the chapters handed on are then the ones made alone, and the page finds in each block the program and an answer that is either the stored one or that of the analyser for this very block. Afterwards the cache file holds the old answers and those of the blocks that had none. A later build of blocks that are all among them needs no analyser, gives the same elements and leaves the file as it is. A build that fails leaves the file as it was.", "quantifier": "all books (any number of chapters, any text), all analysers, all cache files, all interleavings of the workers, all ways in which the file is written; hashes that do not collide on the blocks of the book", "why_tests_cant": "The chapters are worked on by parallel threads that share one map; the effect on a second build is only seen on the file. Tests build one chapter, once.", "anchors": ["crates/mdbook-aquascope/src/main.rs: AquascopePreprocessorWrapper", "crates/mdbook-aquascope/src/preprocessor.rs: AquascopePreprocessor::replacements, save_cache, run_aquascope", "crates/mdbook-aquascope/src/cache.rs: Cache"]}
{"id": "C123", "title": "What a passing test has checked", "statement": "A test of annotated permissions passes exactly if the file can be read and its annotations parsed and, should the compiler come to the analysis, each annotation agrees with the first body that has something at its range. A test of boundaries, steps or executions passes exactly if each body that is looked at has the stored result of its name and file. Flows are shown exactly if a configuration line asks for them. A directory of tests passes exactly if it can be listed and every selected test passes. A program that the compiler refuses is not checked at all.", "quantifier": "all test files, all compilers (any number of bodies, any outcome of each), all stored snapshots, all directories and all values of ONLY", "why_tests_cant": "The test harness is what runs the tests; nothing tests it. A test that checks nothing looks exactly like one that passes.", "anchors": ["crates/aquascope/src/test_utils.rs: load_test_from_file, test_refinements_in_file, test_boundaries_in_file, test_steps_in_file, test_interpreter_in_file, run_in_dir, for_each_body, compile", "crates/aquascope/tests/boundaries.rs", "crates/aquascope/tests/stepper.rs", "crates/aquascope/tests/interpreter.rs", "crates/aquascope/tests/permissions.rs"]}
{"id": "C124", "title": "A conditional that may leave an arm", "statement": "If, in an arm of a conditional or loop, a conditional whose arms do not come together inside it (because one of them breaks, continues, returns or propagates an error) is followed by anything with a step or branch of its own, then the function is shown no permission steps at all.", "quantifier": "all bodies and all sources (any nesting of blocks, conditionals, loops, matches, closures), any number of statements before, between and after, all kinds of jumps, all fuels and orders of hash maps", "why_tests_cant": "Such loops are common in real programs, but a test needs one of them with the jump, the following statement and an enclosing arm; the tests contain none.", "anchors": ["crates/aquascope/src/analysis/stepper/hir_steps.rs: visit_expr, handle_expr_if, insert_step_at_node_exit", "crates/aquascope/src/analysis/stepper/segmented_mir.rs: insert, find_suitable_collection, open_branch, open_child_branch, close_branch, freeze"]}
{"id": "C125", "title": "Every error can be read on the page of the playground", "statement": "Whatever error the tool reports for a function, the playground shows: a build error for five seconds from its report, an error of the analysis with its message until the reader closes it or a later run succeeds, and standard error of the last answer of each operation.", "quantifier": "all sequences of answers, clicks and moments; all results of the tool, with any number of functions and errors", "why_tests_cant": "Whether a message can be read depends on the times of other messages and on how many functions fail at once; there are no tests of the page.", "anchors": ["frontend/packages/aquascope-standalone/src/index.tsx: reportStdErr handler, changeTab", "frontend/packages/aquascope-editor/src/lib.tsx: renderOperation"]}
{"id": "C126", "title": "The diagrams of a program tell its story", "statement": "For every program that runs to its end or into undefined behaviour, the diagrams shown are exactly, in order: for every call of a function of the user the state on entering it, and for every visit of a function to a statement of its outermost block or to its closing brace the state at the end of each stretch of work between two calls; each with the user's functions in the order of the calls, the statement at which each of them is, their variables and the heap.", "quantifier": "all machines, programs, call trees of any depth and shape (recursion, library functions in between, executions that end anywhere), all bodies and spans", "why_tests_cant": "Tests compare the diagrams of a few programs with stored ones; which states are shown follows from three passes that each drop or join states, and depends on the whole execution.", "anchors": ["crates/aquascope/src/interpreter/mod.rs: interpret", "crates/aquascope/src/interpreter/step.rs: VisEvaluator::eval, step", "crates/aquascope/src/interpreter/mapper.rs: group_steps, Mapper::abstract_loc"]}
{"id": "C127", "title": "A mark shows the state after the statement before it", "statement": "For every mark in an interpreted program, the page draws a diagram with the label of the mark; it shows the state in which the last activation of the function around the mark that gets there is done with the last statement of its outermost block that it visits among those that begin before the mark, or has just been entered if there is none.", "quantifier": "all machines, programs, call trees, texts and lists of marks in any order", "why_tests_cant": "Which state belongs to a mark depends on the whole execution and on every position in the text; tests look at a few marks in straight programs.", "anchors": ["frontend/packages/aquascope-editor/src/editor-utils/interpreter.tsx: filterSteps, renderInterpreter", "crates/aquascope/src/interpreter/mod.rs: interpret", "crates/aquascope/src/interpreter/step.rs: VisEvaluator::eval", "crates/aquascope/src/interpreter/mapper.rs: group_steps"]}
{"id": "C128", "title": "One panic takes the end from every conditional before it", "statement": "For every function made of statements and conditionals, some of whose arms end in a panic, the stepper succeeds and records one branch per conditional. The branch ends where the arms come together exactly if neither that conditional nor any conditional behind it has an arm that panics; otherwise it has no end, and the first step after the conditional begins at its condition again. Statements of an arm that panics get no step, and neither does the function as a whole.", "quantifier": "all functions with any number of statements and conditionals, arms of any length, any choice of arms that panic; the two facts behind it for every control-flow graph", "why_tests_cant": "Whether a conditional is closed depends on code arbitrarily far behind it; a test of the conditional alone, or a snapshot without assertions, shows the right steps.", "anchors": ["crates/aquascope/src/analysis/stepper/segmented_mir.rs: SegmentedMirBuilder::least_post_dominator, open_branch, close_branch", "crates/aquascope/src/analysis/ir_mapper/mod.rs: IRMapper::get_mir_locations", "crates/aquascope/src/analysis/ir_mapper/post_dominators.rs: AllPostDominators::build", "crates/aquascope/src/analysis/stepper/hir_steps.rs: HirStepPoints::get_node_exit, handle_expr_if"]}
{"id": "C129", "title": "What moves of parts take and give back", "statement": "A place may be read at the start of a location exactly if its variable is live, it is not mutably lent, and on no way to the location the place or a part of it has been left without a value: moved, by itself or with a whole it belongs to, or never initialised, and not assigned since, by itself or with a whole. A place is reported as moved exactly if on some way to the location it or a part of it has been moved and not given back. Where a place may be read, each part of it may be read.", "quantifier": "all functions with any moves and assignments of variables and of parts at any depth; places rustc tracks for the first claim, all places for the others; all locations", "why_tests_cant": "It needs every combination of moved and assigned parts over all ways through the function; the tests move one field and look at one place.", "anchors": ["crates/aquascope/src/analysis/permissions/output.rs: derive_permission_facts (move_conflicts_with, move_live_at, path_maybe_uninitialized_on_entry)", "crates/aquascope/src/analysis/permissions/context.rs: permissions_data_at_point", "crates/aquascope/src/analysis/permissions/mod.rs: PermissionsData::permissions"]}
{"id": "C130", "title": "Uses of values that are not there are marked", "statement": "At the boundary of a use the letter R is missing exactly if the borrow checker rejects the use because the place, a part of it or a whole it belongs to has been moved or was never initialised on some way to the use, or if the place is mutably lent there.", "quantifier": "all functions, all uses the tool finds, any moves and assignments of variables and their parts at any depth", "why_tests_cant": "Whether rustc keeps facts about a part depends on what else the function does with it; tests use whole variables.", "anchors": ["crates/aquascope/src/analysis/boundaries/mod.rs: compute_permission_boundaries, path_to_perm_boundary", "crates/aquascope/src/analysis/permissions/output.rs: derive_permission_facts (path_maybe_uninitialized_on_entry, move_conflicts_with)"]}
{"id": "C131", "title": "The controls of a block do what they say", "statement": "A pop-up of a block is open exactly if its button was clicked an odd number of times since it was last closed; keys reach the shortcuts of the book exactly while no pop-up of the page is open; hidden lines are shown exactly after an odd number of clicks on the eye, as its icon says; copying yields the whole current text with its hidden lines; and a report of a bug contains what was entered and the program the reader sees.", "quantifier": "all pages with any number of blocks, all sequences of clicks, edits and submissions", "why_tests_cant": "Effects of several pop-ups on one page interleave; the frontend has no tests of its controls.", "anchors": ["frontend/packages/aquascope-embed/src/main.tsx: useCaptureMdbookShortcuts, ContextProvider, BugReporter, initEditors", "frontend/packages/aquascope-editor/src/lib.tsx: CopyButton, HideButton, getCurrentCode"]}
{"id": "C132", "title": "What the check of steps in the repository's tests accepts", "statement": "The check that the tests run on the steps of a function accepts them if and only if every step starts at a place that every way to its end passes, and every location of the function, apart from clean-up and unreachable code, is passed by some step, where a step passes whatever can be met behind its start without entering the block of its end. On steps without a fork, what is passed lies on the way to the end of the step. Behind a fork with two different targets everything counts as passed, so that the check accepts steps of a function although one of its statements is on none of them; this is so for every structured function with an early return after which nothing branches, and for the statements of every arm of a conditional that panics, which are on no step. The steps of every structured function without early exits are accepted.", "quantifier": "all valid control-flow graphs and all sequences of calls of the builder that can be completed", "why_tests_cant": "The check is the test; nothing in the repository says which wrong steps it would let through.", "anchors": ["crates/aquascope/src/analysis/stepper/segmented_mir.rs: SegmentedMirTestExt::validate, explode, is_valid_collection, is_valid_branch, is_valid_segment, is_valid_split_segment", "crates/aquascope/src/analysis/stepper/hir_steps.rs: test_valid_segmented_mir"]}
{"id": "C133", "title": "What the unit tests of the steps say", "statement": "A unit test of the steps that expects no panic passes if and only if for every function of the program, up to the first fatal error of the compiler, the analysis delivers steps that the check accepts; in particular it passes if the compiler stops before the functions are reached. A test that expects a panic passes if and only if some function fails, all functions before it are in order, and the text about the first failing function contains the expected one, whatever the functions behind it are. The text is the one for unsupported features, internal errors, unfinished builders or rejected steps according to what the analysis reports of the function. Every program of structured functions passes. A structured function with an early return passes if and only if nothing branches after it. Functions in which arms of conditionals panic pass. A guard at an arm of a match makes the first function in question fail as unsupported.", "quantifier": "all programs, given as the sequence of their functions with what the compiler says about them, all three forms of the tests and all expected texts; for the last three sentences, all structured functions", "why_tests_cant": "The tests cannot say about themselves which wrong programs or wrong analyses they let through.", "anchors": ["crates/aquascope/src/analysis/stepper/hir_steps.rs: compile_and_run, test_valid_segmented_mir", "crates/aquascope/src/test_utils.rs: compile_normal, compile, for_each_body"]}
{"id": "C134", "title": "Where the server listens and where the page asks", "statement": "The server listens on the port that its variable names in decimal, perhaps after a plus sign, and silently on 8008 if the variable is missing or names no port below 65536. It comes up at an address of version 4 exactly if the variable for the address has this address in its only form, or is missing and the address is 127.0.0.1; with a text that is no address, the name of a host among them, it does not come up. A request of the playground runs its operation if and only if the server listens at host and port of the address that was put into the page and the path of that address has no more than one segment; otherwise it runs nothing. A page and a server made without any variables work together; a server that is told another port gets nothing from such a page.", "quantifier": "all values of the variables of the server, all addresses put into the page (as host, port and path), both operations, all requests", "why_tests_cant": "The tests of the playground are commented out, and the test of the server does not start it.", "anchors": ["crates/aquascope_serve/src/main.rs: Config::from_env, Config::socket_address", "frontend/packages/aquascope-standalone/vite.config.ts: serverUrl", "frontend/packages/aquascope-editor/src/lib.tsx: callBackendWithCode, DEFAULT_SERVER_URL"]}
{"id": "C135", "title": "Arrows stay with their diagram", "statement": "While a diagram is on the page its arrows are shifted to where its corner was at the last multiple of 300 milliseconds at which its coordinates were not negative: if the diagram rests for 300 milliseconds at such a place, the arrows are with it. Their lines are drawn to where the elements were at the last such time at which the corner had moved; so what moves inside a diagram whose corner stays is not followed, and neither is a diagram that goes to negative coordinates. After any sequence of runs and of movements of the mouse, the page has exactly the arrows of the newest diagram, each once; but the timers of all diagrams ever drawn are running, one for each of their steps, unless there has been only one.", "quantifier": "all movements of the diagram and of its contents in time, all times, all sequences of runs with any numbers of steps and arrows and of redrawings", "why_tests_cant": "The tests of the editor render no arrows, and what is wrong is seen only after moving or running again.", "anchors": ["frontend/packages/aquascope-editor/src/editor-utils/interpreter.tsx: renderArrows, InterpreterView, renderInterpreter"]}
{"id": "C136", "title": "Keys typed into an embedded editor stay there", "statement": "While an embedded editor has the focus, a key reaches no listener of the document or the window, except those that capture; it reaches all others on its way, so the editor itself misses none. While no editor has the focus, every key reaches all listeners on its way, whichever editors had the focus before, in any order and however often. With the pop-ups of the blocks on the same page, the listeners of the document hear a key exactly if no editor has the focus and no pop-up is open. If an editor is taken from the page while it has the focus and is not told that it loses it, the book hears no keys any more, until an editor has got the focus and lost it again.", "quantifier": "all books (sets of listeners that do not stop keys), all sequences of movements of the focus between any number of editors and other things, all targets of a key", "why_tests_cant": "No test has listeners for keys besides those of the editor.", "anchors": ["frontend/packages/aquascope-embed/src/setup.ts: suppressKeyEvents, setup", "frontend/packages/aquascope-embed/src/main.tsx: useCaptureMdbookShortcuts"]}
{"id": "C137", "title": "The component shows what it is given", "statement": "The editor as a component of another page shows the code it is given; if it is given a good trace that can be drawn, one horizontal diagram of it; if it is given permissions that can be drawn, those of all bodies without an error, with steps and boundaries. Each is shown as if the other were not given, and no server is ever asked. As long as the component stays, later values are ignored; a new component in its place starts afresh. If its effect is undone and run again in the same element, as React does in strict mode, the diagrams of the destroyed editors stay on the page.", "quantifier": "all codes, all JSON values or none for steps and permissions, all sequences of renderings, repeated effects and removals", "why_tests_cant": "Nothing in the repository uses the component, so no test does.", "anchors": ["frontend/packages/aquascope-editor/src/lib.tsx: EditorComponent, Editor.destroy, Editor.renderOperation"]}
{"id": "C138", "title": "A stack of permissions is animated for half a second", "statement": "A stack of permissions has the class `animating` only for half a second after the mouse entered or left it, whatever else happens. If it was rendered between any two such events, it has it for exactly that time. If it was not rendered between two events less than half a second apart, the animation of the second ends when that of the first would have ended.", "quantifier": "all sequences of events at all times, rendered in between or not, all later times", "why_tests_cant": "The tests of the frontend move no mouse, and what React renders between two events depends on timing.", "anchors": ["frontend/packages/aquascope-editor/src/editor-utils/boundaries.tsx: PermStack, triggerAnimation"]}
{"id": "C139", "title": "Clients that go away", "statement": "Clients of the server may go away at any time while their requests are being worked on. A request whose client stays is answered as if it were the only one; one whose client leaves gets that answer or none. When a client leaves, the directory of its request is removed at once, and when all requests are answered or left, no directory remains. Nothing else of a request that was left remains, either.", "quantifier": "all numbers of requests, all codes, options and behaviours of the tools, all interleavings and all moments at which clients leave", "why_tests_cant": "The tests of the server run one request to its end; a client that leaves at a given moment is hard to arrange.", "anchors": ["crates/aquascope_serve/src/container.rs: Container, exec_output", "crates/aquascope_serve/src/server.rs: make_single_file_endpoint, with_container"]}
