{
 "C02": {
  "note": "The recorded offsets are proved to be UTF-8 byte offsets of the marker position in the cleaned program, which equal character positions for ASCII programs; C02_not_char_position shows they are not character positions in general."
 },
 "C05": {
  "note": "C05_leak records that an option value containing '=' spills the rest of the info string into the program."
 },
 "C07": {
  "note": "The full statement is false: C07_overlap exhibits an inline tag inside a code block. C07_exact: in a chapter with known tags, replacements overlap exactly if a tag starts inside a block. C07_disjoint_partial: chapters with any tags, if no block contains `@Perm` and no tag the start of a block."
 },
 "C08": {
  "note": "For histories in which no two different keys have the same 64-bit hash; gzip+JSON are a codec with the laws in Verif.Cache.Codec."
 },
 "C09": {
  "note": "Crash points: between any two system calls of save and inside any write. gzip+JSON are a codec with the laws in Verif.Cache.Codec."
 },
 "C16": {
  "note": "For memory without pointer cycles (the property's own condition). Miri's memory is a parameter."
 },
 "C17": {
  "note": "Proved for types whose fields are laid out in declaration order without padding; for every other type, the path computed is that of the layout without reordering and padding (C17_packed), and C17_outcome says for every address in every type what the locator answers or how it panics. C17_wrong_field and C17_padding_panic show the property is false otherwise."
 },
 "C18": {
  "note": "The first half (within a step) is proved. The second half is false (C18_error_wrong); C18_error_partial says exactly when it holds."
 },
 "C21": {
  "note": "Proved for one-byte elements; false for larger ones (C21_larger_elements, C21_underflow). C21_exact: the drawn range is right exactly if the slice is empty (and not at the start) or the elements have one byte."
 },
 "C59": {
  "note": "False for pointers stored in vectors (C59_vec_of_refs); proved when no pointer is followed from directly inside a string or vector."
 },
 "C60": {
  "note": "False for cyclic structures and string literals. C60_ends: without cycles, reading ends, for finitely many allocations. C60_cycle_never, C60_never, C60_literal_never: memory with a cycle, and string literals, are never read, whatever the stack; C60_cycle_overflows and C60_literal_overflows show that the stack is exhausted."
 },
 "C19": {
  "note": "Proved: no panic, one set per frame, and each frame's marks are exactly the variables that activation moved out of unaddressed locals; C19_statement says it in terms of the operands of a statement. The full statement is false (C19_reassigned, C19_addressed, C19_call_moves, C19_part: moving one field marks the whole variable, C19_unmarked: variables in memory and arguments of calls are never marked)."
 },
 "C20": {
  "note": "Miri is a parameter (any machine with a stack and a step function). Completeness assumes that a machine step leaves at most one user function and that states can be read; C20_failure covers read errors."
 },
 "C27": {
  "note": "Proved for paths that do not dereference raw pointers; false for *const pointers in mut variables (C27_raw_pointer). C27_box_behind_mut_ref and C27_box_content show that the maximum is smaller than what Rust allows for boxes. C27_inside says the same of places whose types are given by a relation.",
  "status": "partial"
 },
 "C28": {
  "note": "Proved for single permission sets. The merge of whole states is not a join (C28_not_a_join, C28_false_change); C28_domain_partial says what it does."
 },
 "C58": {
  "note": "Normalisation of places is a parameter; rustc's location table is modelled by its layout. A place registered twice has two paths (C58_duplicate), but look-ups always return the first."
 },
 "C23": {
  "note": "rustc's control-flow edges, moves, assignments and place overlap are inputs; datafrog's semi-naive iteration is modelled and proved to compute the least fixpoint."
 },
 "C24": {
  "note": "Polonius' path_maybe_uninitialized_on_exit and child_path are inputs."
 },
 "C25": {
  "note": "Polonius' loan_live_at, the borrow set and places_conflict are inputs."
 },
 "C29": {
  "status": "partial",
  "note": "The table and the display are proved for every boundary. Two uses do not follow it: plain assignments to anything but a dereference get no boundary (C29_assignment_ignored), and reading a Copy field of a non-Copy variable is recorded as a move (C29_field_copy). The Rust is_violation ignores flow (C29_flow_not_counted); the displayed icons include it."
 },
 "C30": {
  "note": "Boundaries: proved. Step rows (C30_rows theorems): nothing after the error is shown, but rows on the error's own line are lost because the comparison uses the end of the line (C30_rows_same_line_lost).",
  "status": "partial"
 },
 "C31": {
  "note": "False as stated: C31_none_chosen (nothing chosen despite candidates) and C31_not_most_specific. Proved when no variable resembles the source text; what happens otherwise is C31_similar."
 },
 "C61": {
  "note": "Coverage is proved for every expression. One boundary per variable fails for indices and temporaries inside a place (C61_index_lost, C61_temporary_lost) and is proved when places are variables followed by fields and dereferences."
 },
 "C32": {
  "note": "Declared relations are those between regions that occur in the body (see C33). The analysis panics iff a region it asks about is not in the graph (C32_total)."
 },
 "C33": {
  "note": "False as stated: a chain through a region that does not occur in the body's constraints is missed (C33_unused_middle). C33_declared_used gives the exact relation; the caller/local attribution half is proved in full."
 },
 "C62": {
  "note": "False: regions merged into one component by a cycle are accepted (C62_cycle_accepted). C62_declared_partial: in a body that merges no regions, accepted flows follow from the signature; C62_exact says what is accepted in general."
 },
 "C34": {
  "note": "Proved for character ranges in full. For spans, empty ones included: the same characters and positions are covered and the result is sorted (C34_lossless); the whole claim holds if no empty span starts where a non-empty one does (C34_clean_partial), in particular for non-empty spans. False otherwise (C34_empty_span)."
 },
 "C35": {
  "note": "What is highlighted is exact for all spans and macros (C35_covers, C35_macros), as is when there is a region (C35_exists). Sorted and disjoint for code outside macros with non-empty statement spans (C35_highlight_partial); with empty ones the ranges can overlap (C35_empty_overlaps). as_local is applied after the window test, so a statement from a macro can be lost (C35_macro_lost)."
 },
 "C36": {
  "status": "partial",
  "note": "The property is violated: is_span_visible is inverted, so a move gets a point exactly when its span is empty or synthetic (C36_inverted, C36_visible_lost, C36_no_region). C36_operational: C36_regions with the code's own test for points at which something is done."
 },
 "C37": {
  "note": "Exact for every graph and exit list. C37_no_exits and C37_partial_reach record the boundary cases: with no exit everything post-dominates everything."
 },
 "C38": {
  "note": "The claim is false with false edges: imaginary edges are kept (C38_imaginary_kept, C38_imaginary_witness). C38_edges states the exact edge set; C38_kept_partial is the claim for bodies without false edges."
 },
 "C39": {
  "note": "Exact for every valid body, for both gather depths."
 },
 "C63": {
  "note": "Entry: proved. Exit: proved for functions that return (C63_exit_partial); in a function that never returns the exit is the same for every order exactly if the node lies in one block (C63_exit_iff); false otherwise (C63_endless_loop)."
 },
 "C40": {
  "note": "Exact, for flags, optional facts, whole states and whole domains. A change of the refining loan is shown as unchanged (C40_refiner_change)."
 },
 "C42": {
  "note": "For every order of the input tables and of their rows, so for every hash order. Place visibility is a parameter."
 },
 "C43": {
  "note": "Proved as stated. C43_order_dependent, C43_not_total and C43_unchanged_vanishes record consequences: the display depends on hash order when steps clash, and unchanged rows cancel."
 },
 "C44": {
  "note": "Tables with an end of their own are kept, nothing foreign is added, and collection ends. False for tables with a shared end: C44_lost (map extend overwrites)."
 },
 "C45": {
  "note": "Contiguity after every history; a branch that never joins hands back its own start, so the step after it starts there again (C45_restart).",
  "status": "partial"
 },
 "C47": {
  "note": "Every identifier resolves and nesting is well-founded. A branch without split steps is delivered and makes the scope lookup panic (C47_no_splits)."
 },
 "C48": {
  "note": "Proved for branches without implicit children, and for all branches when the first argument of a union becomes the root. With the tie rule of ena (second wins) it is false: C48_child_keeps_open, C48_never_finished."
 },
 "C49": {
  "note": "Exactly characterised: the search returns the first switch, or never returns when the unique successors cycle (C49_diverges, C49_endless_loop), or reports none."
 },
 "C64": {
  "note": "Proved when no switch lies ahead; false in general: C64_stuck, C64_diverges (early return inside nested ifs)."
 },
 "C65": {
  "note": "Refuted: a second level always panics (C65_no_grandchild, C65_panics).",
  "status": "partial"
 },
 "C66": {
  "note": "Every linear step is straight or, if it is cut short at the join point of its stretch, runs backwards (C66_exact); it is straight exactly if its start comes before its end (C66_straight_iff). C66_forward_partial: all steps are straight if no branch leads past a join point. Without this a step can run backwards (C66_backwards)."
 },
 "C50": {
  "note": "Exact for every history of the tracker. In the plugin the claim holds if each analysis checks only its own body (C50_own_partial); it fails if the check of another body is forced (C50_other_body) or the earliest error lies outside the body (C50_outside_hides). errors_exist counts warnings (C50_warnings_counted)."
 },
 "C56": {
  "note": "Holds unless an analysis ends the run: a fatal error truncates the output silently (C56_fatal), a panic suppresses it (C56_panic), a program that does not parse gives the empty array (C56_unparsed).",
  "status": "partial"
 },
 "C67": {
  "note": "False as stated: a program with compile errors makes the plugin panic on unwrap of the missing result (C67_crash); exact for the other cases."
 },
 "C57": {
  "note": "Test-source annotations. C57_accepted/C57_rejected describe exactly which files are accepted; C57_slice, C57_distinct, C57_letters and C57_checked describe the extracted ranges and permissions. Disagreement (C57_bracket_before): an annotation written directly after a closing bracket is rejected."
 },
 "C68": {
  "note": "C68_join and C68_exists characterise the join point by paths alone (bodies with at least one return; without a return the code's answer depends on hash order). C68_shared: when two branches share a join block the inner one gets none."
 },
 "C51": {
  "status": "partial",
  "note": "For every interleaving of any number of requests each answer is the one the request would get alone (C51_outputs, C51_error, C51_dropped), every request can be answered (C51_answers), and answered requests leave no directory (C51_clean). The statement as written is false: output that is not UTF-8 and any warning of `cargo new` give no answer at all (C51_dropped, C51_warning_drops), a missing sysroot is a further error (C51_error), and a timed-out tool keeps running (C51_orphans, C51_timeout_runs_on). Unreadable requests are answered with status 200 (C51_unreadable)."
 },
 "C52": {
  "note": "For traces and marks of any length; lodash sortBy is modelled as a stable insertion sort."
 },
 "C53": {
  "note": "The decision table, and that every change of permissions the analysis reports has an icon (from the fact model)."
 },
 "C54": {
  "note": "C54_second_lost records that a second boundary at the same position is not drawn even if it is a violation."
 },
 "C55": {
  "note": "The statement is false: C55_abbreviated, C55_slice_lost, C55_zero_sized, C55_iter_name. Proved for paths that avoid abbreviated elements, fields after zero-sized ones and hidden containers; C55_draws characterises exactly which values can be drawn."
 },
 "C72": {
  "note": "Every drawn pointer has an arrow to an element of its class (C72_every_pointer) and classes have different names (C72_names). That the element is the right one is proved for direct paths and frames with distinct names; false otherwise (C72_zero_sized, C72_element_100, C72_shadowed)."
 },
 "C73": {
  "note": "C73_substring records that a literal expression also selects paths that contain it. JavaScript regular expressions are a parameter."
 },
 "C74": {
  "note": "C74_exact: right iff the characters before it on its line are in the basic plane; C74_emoji shows it is false in general.",
  "status": "partial"
 },
 "C75": {
  "note": "False with marks (C75_wrong_step); C75_at_failure_partial says exactly when it holds."
 },
 "C78": {
  "note": "Random tags are assumed not to collide. C78_empty_point records that a loan with an empty point breaks the drawing of all bodies."
 },
 "C69": {
  "note": "The statement is false: the server looks only at whether the key is present (C69_ignored). Proved for the unticked box."
 },
 "C70": {
  "note": "The statement is false (C70_stale_answer, C70_failed_redraws, C70_panel, C70_banner_stays). C70_exact says exactly which events draw something in the wrong text; C70_calm_partial covers all runs without edits during requests and without failed requests."
 },
 "C71": {
  "note": "The statement is false for wide integers (C71_wide), integers above 2^53 (C71_large), characters outside the basic plane (C71_char), non-ASCII strings (C71_string) and floats that are not finite (C71_not_finite). The text of floats is a parameter."
 },
 "C81": {
  "note": "The statement is false: the button passes no options, so steps and boundaries are always removed (C81_clears), and answers out of order leave an old diagram (C81_out_of_order). Proved for the diagram with one request."
 },
 "C82": {
  "note": "All trees and all graphs; the errors part needs a valid body (targets in range), which is what rustc produces."
 },
 "C83": {
  "note": "C83_insert: right after an insertion that opens no branch, a branch can be opened at its location iff the insertion was recorded with that end. C83_recorded lifts it to whole functions."
 },
 "C84": {
  "note": "The property as stated is refuted: C84_lost and C84_later are the witnesses. C84_rest states what holds instead for all bodies: everything recorded after a conditional lies in what can be reached from its join, and so do all conditionals that follow. C84_programs and C84_left_out give the exact steps of every function `pre; if c { t } q` whose arm t returns and whose rest q does not branch (pre and t arbitrary programs of the language of C102): none for q. C84_branching: if q branches, the function has no steps at all.",
  "status": "partial"
 },
 "C85": {
  "note": "C85_compute and C85_not_finished are equivalences over all bodies; C85_left_open gives the two constructs that are refused."
 },
 "C86": {
  "note": "Both directions, for all trees."
 },
 "C87": {
  "note": "Refuted in general by C87_shared. C87_order_partial proves it for all bodies in which no two branches of a conditional start behind the same target of its switch.",
  "status": "partial"
 },
 "C88": {
  "note": "The due steps are given by a separate recursive specification over the tree."
 },
 "C89": {
  "note": "Total correctness: the computation succeeds and its segments are given by a closed form."
 },
 "C79": {
  "status": "partial",
  "note": "Proved: one arrow each, the exact height for two or more arrows into a box, the distance of at least 30 %, that a side arrow never ends at 75 %, that heads lie on the box for at most four, that neighbours differ in colour and stack-to-heap arrows turn at different distances. The code does otherwise: no height is computed for a single arrow (C79_single), the first of more than four ends above the box (C79_outside), and the turning distance counts all arrows because the grouping key is the text of an object (C79_all_counted). Heights are exact fractions, not floats."
 },
 "C80": {
  "note": "Proved when all options are bare flags or have the value true (C80_plain_partial), and that tool and page agree about shouldFail unless its last value is empty (C80_tool_partial). The code does otherwise: k=false switches an option on (C80_false_is_on, C80_false_to_tool, C80_false_witness), an empty value separates tool and page (C80_empty_differs), steps and boundaries accept only the value true while other options accept any text (C80_yes_differs)."
 },
 "C90": {
  "note": "Proved for pages whose blocks all have a program (C90_all_partial) and for blocks that do not hide their code (C90_operations_partial); C90_tool and C90_asked hold for all. The code does otherwise: a block with an empty program stops all later blocks (C90_stops), and in a block that hides its code every operation after the diagram ends with an exception (C90_hidden). Whether drawing throws is a parameter."
 },
 "C91": {
  "note": "Proved for every function whose top-level statements are children of its block. The node of a location (location_to_hir_id) and the spans are parameters. In a function whose body is not a block, such as a closure |x| f(x), all locations but the closing brace are attributed to nothing (C91_no_block)."
 },
 "C92": {
  "status": "partial",
  "note": "Proved for all traces: C92_sound, C92_last, C92_moves, C92_result, C92_total. That exactly the last states of the runs are shown is proved if everything attributed to a statement has a span inside its function (C92_runs_partial); without this the code loses states (C14_two_stage_limit). A state is dropped if any of its frames cannot be shown (C92_nothing), so calls made from a closure without a block are not shown. Spans to character ranges are not part of this model (see C15, C16)."
 },
 "C93": {
  "note": "Proved when each stream fits into its pipe (C93_in_time_partial); C93_output and C93_not_early hold always. The code does otherwise: it waits for the exit before it reads, so an analyser with more output than fits into a pipe (64 KiB on Linux) blocks and is always reported as timed out (C93_large, C93_never_analysed). Pipe semantics are modelled."
 },
 "C94": {
  "note": "Proved for the places (C94_places), for boundaries (C94_boundaries) and for the tables of lines about which the answers agree or that had none (C94_steps_partial, C94_new_line). The code does otherwise: two step widgets on the same line count as equal, so the first table of a line at a position stays whatever later answers say (C94_stale, C94_stale_forever). That CodeMirror keeps the element of an equal widget at the same position is from memory of the library."
 },
 "C95": {
  "note": "Proved: the list is exactly the named variables that pass the code's check, in order (C95_shown), and when the recording stops (C95_stops). The check is right for types other than enums in one direction (C95_initialised_partial) and for parts without inner padding in the other (C95_complete_partial). The code does otherwise: inner padding hides a completely initialised variable (C95_padding), an enum counts as soon as its tag is written (C95_enum), a union with an address stops the recording (C95_union), and a zero-sized variable is listed before it is assigned (C95_empty). Initialised bytes, states and layouts of variables are parameters."
 },
 "C96": {
  "note": "Proved: the recorded memory is exactly that of the variables shown, with frame and name, if variables do not share memory (C96_slots); a whole state is a diagram in the sense of C16 and marks follow the recorded moves (C96_step); where pointers into the stack are drawn (C96_pointer). The code does otherwise for live memory that no shown variable owns, such as temporaries: such a pointer is drawn like a dangling one (C96_temporary). Moves are those of C19 (only variables without an address).",
  "status": "partial"
 },
 "C97": {
  "note": "Proved for any control flow: every row is true (C97_true), also in terms of the program's facts (C97_facts); where nothing changes nothing is shown (C97_silent); the page is always put together (C97_total). Completeness is proved for any control flow if the table's end is its own and no other step on the line changes the place (C97_shown_partial); for functions without conditionals no condition on ends is needed (C97_straight), and if changes are on different lines the rows tell the permissions after every step (C97_story), with the conditions on hidden variables stated about the source in C97_story_source. For any control flow: a variable whose declarations have no step inside is in scope at every step (C97_not_hidden). The code does otherwise for `let x = { e };`: the gain of x is never shown (C97_block_hides); further losses are C43, C44.",
  "status": "partial"
 },
 "C98": {
  "note": "Proved: the recorded uses, with position and surrounding statement, are exactly those of the source (C98_uses); each reported boundary and each drawn stack tells the truth about the place and point found for it (C98_boundaries, C98_drawn); each use that is found is reported (C98_reported), in order (C98_order); what is found is a visible place used by a statement of the node or of a node around it (C98_found), the node's own if there is only one (C98_own), and when nothing is found (C98_unresolved). If the statements are in one block the order of hash maps does not matter (C98_order_free_partial). The code does otherwise: with two blocks hash order decides (C98_order_matters), and a use without statements is judged by another use around it (C98_elsewhere). Which source variable a MIR place stands for is a parameter (`similar`).",
  "status": "partial"
 },
 "C99": {
  "note": "Proved: C99_statements (exactly these steps), C99_own (each statement's step), C99_page (rows after every statement, with C97); ends and beginnings of nodes for any control flow (C99_end, C99_begin) and on a line (C99_last, C99_first, C99_has_end); variables of a let (C99_declared). If the layout is not in source order, statements lose their step (C99_out_of_order). That rustc lays code out in this order is an assumption (`InOrder`).",
  "status": "proved"
 },
 "C100": {
  "note": "C100_steps: for any source and any structured graph, if the walk described by `Goes` exists (an inductive description of steps in order along the graph, independent of the builder), the visitor and builder record exactly it. C100_programs and C100_counts discharge the walk for every program of the small language: assignments, calls, if, if-else; compiled to blocks as rustc does. C100_join, C100_dominators: joins and dominators of nested conditionals. Loops and matches are not covered (a match of several arms is C87, loops C49/C64); early returns break the claim (C84_lost).",
  "status": "proved"
 },
 "C101": {
  "note": "C101_in_tree, C101_splits: for every history. C101_shown_partial: any function, with the stated exceptions (each is a real loss: C44_lost, C43, C97_block_hides). C101_page, C101_entry, C101_silent: all programs of the small language. C101_story_partial: the permissions after every step, since the start or the last join; missing: the permissions at a join, which are not on the page (C101_silent, C101_lost_at_join).",
  "status": "partial"
 },
 "C102": {
  "note": "C102_steps: any function with a walk. C102_programs, C102_complete, C102_order: every program of the language. C102_source: the same from nothing but which locations belong to which node of the source, with the begins and ends of nodes computed as the code does. The translation of programs to blocks and source (Walk/Lang) is part of the trusted base: no guards, early exits, values of blocks or unwinding."
 },
 "C103": {
  "note": "C103_kept: any steps and branches. C103_page, C103_entry, C103_silent, C103_loops_told: every program (the last without `if` and `match`). C103_story_partial: the story starts again where arms come together, since the code shows nothing there (C101_lost_at_join). C103_shown_partial: any function, for steps whose end is no other step's and no other branch's. Translation of programs as in C102."
 },
 "C104": {
  "note": "Hypotheses `Analysed` (rules of Polonius and rustc for `var_live_on_entry`, `path_maybe_uninitialized_on_exit`, the two points of a location) and `Accepted` (no use while moved or uninitialised; where the path gets a value, or gets it back, the whole variable is set: by a statement, a call or as an argument). `InPlace`: the path does not get its value right at the location, as it does at the location a call returns to; there C104_landing."
 },
 "C105": {
  "note": "C105_page, C105_quiet: every program of C102. C105_location, C105_step, C105_arm: every body. Hypotheses as for C104; `Flow`: the edges of the facts are those of the body; `Rests`: no step ends where a call has only just returned the value."
 },
 "C106": {
  "note": "The pinned file is a parameter; the theorems are about files that give a channel. C106_not_trimmed: values from the environment keep white space at their end."
 },
 "C107": {
  "note": "The order of iteration of the state is a parameter (the order of the list). The texts are well-formed markup if the texts of places have no angle brackets (C107_markup); places are not escaped, so that a field with a generic type breaks the table (C107_angle)."
 },
 "C108": {
  "note": "C108_told: all ways made of steps and of the jumps that no step covers; C108_merge: nothing changes over these jumps; C108_runs: every run through the control flow is followed by such a way. Hypotheses as for C105, and `Silent`: what the compiler adds (jumps, assignments of the unit value) does not mention the variable."
 },
 "C109": {
  "note": "C109_page: rows; C109_steps: permissions at both ends of each step; C109_statement, C109_loop. C109_possible: for every program and every choice of uses there are facts that meet the hypotheses. Hypotheses as for C105, and `Mentions`: which locations use and set the variable."
 },
 "C110": {
  "note": "C110_owed: the rules of Polonius and holders; C110_permissions: the permissions of one path; C110_steps, C110_page: steps and rows; C110_merge, C110_runs: runs; C110_taken, C110_lent, C110_shared: what loans take and give back; C110_possible: for every program and choice of borrows there are facts that meet the hypotheses. The rules of Polonius (`Within`, `Carries`, `Owed`) are stated from memory of the library. Holders have no destructor and are not reached through other places."
 },
 "C111": {
  "note": "C111_shown, C111_rejected: objections are shown, for the place and location that is found for the use. C111_objection_partial, C111_accepted_partial: the converse, except for uses in which the borrow checker is more lenient. In these it is false: C111_two_phase (`v.push(v.len())`), C111_reserved (`v.push(s.len())` with `s = &v`), C111_match (`match v { _ => .. }`), C111_behind (assignment to a pointer while what is behind it is lent), C111_box (putting back the content of a box). The rules of the borrow checker (`Rejected`) are stated from memory of rustc. The two cases of moved and uninitialised values are stated with the facts the tool uses; C130 states them with the move paths of rustc."
 },
 "C112": {
  "note": "C112_letters; C112_rejected_partial: except for the cases of C111 in which the borrow checker is more lenient. The variable is not used while moved or uninitialised; the use is at the location where some step begins. Hypotheses about Polonius and rustc as for C110 and C111; C110_possible gives facts that meet them."
 },
 "C113": {
  "note": "C113_shares_memory_partial, C113_never_misses, C113_total, C113_symmetric, C113_parts, C113_siblings on the comparison of places; C113_loans_partial, C113_moves_partial on the facts. Exceptions: elements of empty arrays (C113_empty_array), a comparison behind a shared reference panics (C113_behind_shared; rustc records no such loans), and once one field of a moved struct is assigned, the move is no longer in force for the others either (C113_reinit_part; the borrow checker rejects such programs). `places_conflict` is stated from memory of rustc. Opaque casts and coroutines are left out."
 },
 "C114": {
  "note": "The code violates both halves. C114_every_loan, C114_all_errors: the check does not depend on the place, so C114_reborrow: loans of what the caller lent are taken to end with the function, too. C114_never_shown: the reason `LocalInvalidatedAtExit` is never drawn. C114_no_effect: hence which loans are taken to end with the function has no effect on what is drawn.",
  "status": "partial"
 },
 "C115": {
  "note": "C115_round_trip, C115_one_line, C115_cached, C115_opens (composition with the opening of a page, C90), C115_attribute, C115_json, C115_injective. `serde_json`, `html_escape`, `HtmlElementBuilder`, `JSON.parse` and the syntax of start tags are stated from memory. Numbers stay texts: what JavaScript makes of large ones is C71."
 },
 "C116": {
  "note": "Partial because the code violates it: a float that is not finite is printed as null and the trace cannot be read (C116_not_finite), and a value with 59 tuples one inside the other makes the book builder refuse the answer, since serde_json reads 127 levels (C116_deep, for every depth). Otherwise: C116_trace_partial, C116_trace_injective, C116_output, C116_order, C116_results, C116_book (exactly when the answers come through the book builder), C116_page, C116_page_trace_partial, C116_page_results, C116_depth (results of the analysis are never too deep). The derives of serde are stated from memory; samples with every kind of part are compared letter by letter. Texts of floats are a parameter. What the page makes of whole numbers above 2^53 is C71."
 },
 "C117": {
  "note": "The three assumptions on the codec of the cache (C08, C09) are proved for JSON and UTF-8; what remains assumed is about gzip only, and about bytes: a complete stream gives back its input, the beginning of a stream gives a beginning of it. C117_cut_text shows that the text needs no checksum. serde_json and UTF-8: the reader and writer of Wire/Json, stated from memory, and Lean's own UTF-8."
 },
 "C118": {
  "note": "Partial because the code violates the last sentence: an error of the server is sent as plain text with status 500, the page takes it for JSON and an exception ends the operation (C118_lost, for every error); the answer to a request that cannot be read has its explanation under `error`, where the page does not look (C118_refusal). The rest: C118_request, C118_route, C118_flag, C118_injective, C118_answer_partial, C118_silent, C118_only, C118_trace_partial (floats that are finite, as in C116), C118_trace_error, C118_results. Composes C51 (the server) with C116 (the types as JSON)."
 },
 "C119": {
  "note": "Partial because the code violates it for traces: numbers of 64 bits are declared as `bigint` and arrive as numbers, floats that are not finite arrive as `null` (C119_bigint says exactly which traces have their type; C119_trace_partial if `bigint` is read as number). Proved for results, errors (C119_results) and annotations (C119_annotations). ts-rs is stated from memory (Wire/TypeScript). C119_present, C119_lacks: which properties may be missing or null."
 },
 "C120": {
  "note": "Partial because the code violates it for the operation `interpreter` of a block with `showFlows`: the option is passed to every operation, the parser refuses it, and the block is never answered (C120_flows_refused). C120_book_partial and C120_answered_partial are exact with this exception. C120_options: all command lines for permissions. The rest (C120_transport, C120_no_panic, C120_playground, C120_no_flows, C120_driver) is proved. clap 3.2 and rustc_plugin are stated from memory (Cli/Model)."
 },
 "C121": {
  "note": "Partial because the code violates it for a tag inside a block: the end of the block stays in the chapter (C121_leak; C121_leaks for all such chapters with one block and one tag; C121_panics: the build can end in a panic). C121_exact: if blocks and tags can be shown, the chapter is right exactly if no tag starts inside a block. C121_chapter_partial: all chapters in which no range overlaps another (C07 says when); C121_order, C121_stable, C121_fails, C121_untouched: all. `SimplePreprocessor` of mdbook_preprocessor_utils is stated from memory (Chapter/Model)."
 },
 "C122": {
  "note": "C122_exact, C122_built, C122_page, C122_again, C122_failed_keeps. A consequence that one would not want, C122_forgotten: as long as one block fails, no answer of any other block is kept, so that each build analyses all of them again. The order build / replacements / finish of `SimplePreprocessor` is stated from memory (Book/Model)."
 },
 "C123": {
  "note": "C123_refinements, C123_boundaries, C123_steps, C123_interpreter, C123_flows, C123_directory are exact. That every annotation of a passing test has been compared needs that the compiler came to the analysis and met no fatal error (C123_checked_partial); without this it does not hold: C123_unchecked, C123_fatal, C123_broken_passes. Also C123_same_name (two functions of one name cannot both be checked unless their results are equal) and C123_nothing_selected. The compiler and the store of snapshots are parameters."
 },
 "C124": {
  "note": "C124_no_steps. That the two conditionals are so is said of the graph (`Splits`, `Toward`: dominance and post-dominance) and of the source (`Leaves`). It assumes that the switch of every conditional is dominated by the end of its condition. Witnesses: C124_while_break, C124_deep_return. That steps are shown if nothing follows is not part of the claim."
 },
 "C125": {
  "note": "Partial because the code violates it: a build error within five seconds after another one disappears with it (C125_cut_short); of several messages only the last can be read (C125_last, C125_several); a later answer without errors leaves the card (C125_stale); the two operations share one box for standard error (C125_last). C125_build and C125_analysis say exactly when the cards are on the page, C125_results and C125_trace which errors are reported for what the tool printed; C125_five_seconds_partial is the claim for a build error with none in the five seconds before."
 },
 "C126": {
  "note": "Partial because the code violates it for recursion: when a function has called itself from one statement, all the returns are one diagram (C126_recursion, for any depth; C126_recursion_count). C126_story is exact for every story: states with a function in no statement are left out and stretches in a row at the same place are joined; C126_exact_partial is the claim without both; C126_count counts the diagrams; C126_hidden: nothing called from a place in no statement is shown; C126_undefined: the last diagram before undefined behaviour; C126_unique. That a machine state can be read is a hypothesis (C20). The machine (Miri) is a parameter."
 },
 "C127": {
  "note": "C127_mark: the diagram of a mark is the last state of the story (C126) whose innermost function contains the mark and is at a place that begins before it. C127_statement_partial, C127_entered_partial, C127_main_partial: this is the state of the claim if no function called by later statements contains the mark and later visits begin behind the mark. C127_inside: marks inside one statement of the outermost block, such as a loop, all show the state after the whole statement. C127_closure: a mark inside a closure written in the statement that calls it shows a state of the function around it instead. That the lines and columns of a diagram are the positions of the functions and places in the text is a hypothesis (C74)."
 },
 "C128": {
  "note": "C128_no_join: in any body, a switch that dominates a block which cannot reach a return has no join. C128_no_exit: a node with a location in such a block has no exit. C128_steps: all steps and branches of every function of the language. C128_joins: which conditionals have a join. C128_restart: where the first step after a conditional begins. C128_later: two functions that agree up to the end of a conditional and show it differently. Arms are single blocks and at most one arm of a conditional panics."
 },
 "C129": {
  "note": "Hypotheses `Tree` (how `child_path`, `interior_paths`, parents and conflicts of places lie to each other), `Ruled` (the rule of Polonius for `path_maybe_uninitialized_on_exit`). C129_uninit: initialisation, both directions. C129_true: a reported move is one, in every program. C129_moved: both directions, assuming `Careful` (the borrow checker accepts no assignment to a part of what is gone; no location moves and assigns overlapping places at once). C129_read, C129_parts."
 },
 "C130": {
  "note": "Partial because the code violates it: a part of a variable that was never initialised, and that the function neither moves nor assigns by itself, is shown as readable (C130_part_of_blank: `let x: (i32, i32); &x.0`). C130_known_partial, C130_rejected_partial: places that are move paths of rustc. C130_unknown: exactly what is shown for the others: moves of wholes and parts, not initialisation. C130_checker: the check of rustc, stated from memory with move paths (`Absent`), finds exactly whether some part may be without a value. Hypotheses `Ruled`, `Rooted` and, for C130_unknown, `Careful` as for C129."
 },
 "C131": {
  "note": "Partial because the code violates the last part: a report has the program of the book even after the reader has changed it (C131_stale). C131_popups, C131_shortcuts, C131_eye, C131_copy: the other parts, for every sequence of events. C131_report_partial, C131_no_other: exactly what is reported. C131_shortcuts is about pop-ups only; C136_together adds the focus of the editors."
 },
 "C132": {
  "note": "C132_exact: the check as it is written, with the requirement that steps on a stretch are straight. C132_before: that requirement follows from the others (by C66), so it never decides. C132_stretch: what counts as passed by a straight step is on it. C132_blind: two split steps pass everything behind their fork. C132_lost: the steps of `if c { return; } s` (C84) are accepted, although `s` is on none of them. C132_programs: the check accepts the steps of every program of C102. C132_early: it also accepts the steps of every function with an early return of C84, although no location behind the `if` is on a step. C132_panics: the functions of C128, with arms that panic."
 },
 "C133": {
  "note": "C133_plain, C133_expected, C133_any: the three forms. C133_programs: the programs of C102, by C132_programs. C133_early: the functions of C84, by C132_early and C84_branching. C133_panics: the functions of C128, by C132_panics. C133_guard: by C86. C133_texts: the texts of the panics. That a test passes whose program does not compile is recorded in DESIGN.md, as for C123."
 },
 "C134": {
  "note": "C134_port, C134_one_port: the port. C134_address, C134_down: the address. C134_arrives: requests, with the router of C51. C134_default and C134_apart: without variables, and with one for the port of the server only. The parser of URLs and addresses of version 6 are parameters."
 },
 "C135": {
  "note": "C135_follows: the shift, exactly. C135_in_time_partial: with the diagram after 300 ms of rest where coordinates are not negative; C135_negative: not otherwise. C135_drawn: the lines, exactly; C135_inside: contents that move are not followed. C135_arrows: the arrows on the page. C135_timers: all timers keep running; C135_once_partial: one diagram only. The behaviour of React for a second root in a container, and of style sheets for an unreadable value, are assumptions."
 },
 "C136": {
  "note": "C136_kept: with the focus in an editor. C136_passed_partial: outside, if no editor vanished with the focus; C136_stuck: what happens if one did. C136_exactly: what is heard in all cases, whatever editors have vanished. C136_together: the same with the pop-ups of C131 on the page. C136_editor: the editor hears its keys. The order of the events of the browser and the dispatch of events are stated from memory; books whose own listeners stop keys are not considered."
 },
 "C137": {
  "note": "C137_shows: what is drawn, exactly. C137_asks_nothing: no server. C137_first: later values. C137_left: what remains of destroyed editors. C137_fresh: after removal. Whether a response can be drawn is a parameter, as in C80; React's treatment of effects is stated from memory."
 },
 "C138": {
  "note": "C138_exactly: when the stack is animated, for all events in order and all renderings. C138_ends: never longer than half a second after the last event, also for times out of order. C138_rendered: exactly that, if rendered between any two events; C138_cut_short: otherwise the timer of the first event is not cleared, because the function still sees the timer of the last rendering. React's states and the browser's timers are stated from memory."
 },
 "C139": {
  "note": "C139_alone, C139_at_once, C139_clean, C139_answers (all others can still be answered): for every sequence. The last sentence is violated: cargo or the tool runs on, since the command does not set kill_on_drop (C139_runs_on; C139_processes counts what runs on after any sequence). That the future of a handler is dropped when its connection is closed is stated from memory.",
  "status": "partial"
 }
}